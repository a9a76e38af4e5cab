import Verif.Wrap
import Mathlib.Tactic.Ring
/-
C74: the heap in wrapping mode.  The specification, and the agreement of the table with what the
application owns.
-/
namespace Verif.Wrap

/-! ## The specification -/

/-- The errors of an event: a free of what the application does not own; a free by the wrong routine, of
the block or, if there is none, of the one 4 bytes before or after; an allocator that fails. -/
def Rule (s : St) : Ev → Report → Prop
  | .free _ p _ _ _, .invalid q => q = p ∧ p ≠ 0 ∧ s.own p = none
  | .free _ p _ _ _, .nullFree => p = 0
  | .free _ p how inner _, .mismatch q k f => inner = false ∧ f = how ∧ k ≠ how ∧ k ≠ .unknown ∧
      (∃ b, s.own q = some b ∧ b.kind = k) ∧ (q = p ∨ (s.own p = none ∧ (q + 4 = p ∨ q = p + 4)))
  | .post t, .failure n => ∃ k, s.pend t = .got n k 0
  | _, _ => False

/-- The application frees what it owns, or NULL. -/
def Good (s : St) : Ev → Prop
  | .free _ p _ _ _ => p = 0 ∨ s.own p ≠ none
  | _ => True

/-- A run without an invalid free. -/
inductive Run (rz : Nat) : List Ev → St → List Report → Prop
  | nil : Run rz [] St.init []
  | snoc {es s rs} (e : Ev) : Run rz es s rs → enabled rz s e → Good s e →
      Run rz (es ++ [e]) (step rz s e).1 (rs ++ (step rz s e).2)

/-! ## Small facts -/

theorem upd_self {α : Type} (f : Nat → α) (k : Nat) (v : α) : upd f k v k = v := if_pos rfl

theorem upd_other {α : Type} (f : Nat → α) (k : Nat) (v : α) (x : Nat) (h : x ≠ k) : upd f k v x = f x :=
  if_neg h

theorem upd_upd {α : Type} (f : Nat → α) (k : Nat) (v v' : α) : upd (upd f k v) k v' = upd f k v' := by
  funext x; unfold upd; split <;> rfl

theorem upd_same {α : Type} (f : Nat → α) (k : Nat) : upd f k (f k) = f := by
  funext x; unfold upd; split <;> simp_all

theorem grow_ok (rz n : Nat) (hr : rz ≤ 0x10000000) (hn : n < W) : n + 2 * rz ≤ grow rz n ∨ top < grow rz n := by
  unfold grow W top at *
  split <;> omega

theorem mulOver_sound {m n : Nat} (hm : m < W) (hn : n < W) (h : mulOver m n = true) : W ≤ m * n := by
  have hW : W = 2 ^ 64 := by decide
  rw [hW] at hm hn ⊢
  unfold mulOver at h
  simp only [Bool.or_eq_true, Bool.and_eq_true, decide_eq_true_eq] at h
  have em := Nat.div_add_mod m (2 ^ 32)
  have en := Nat.div_add_mod n (2 ^ 32)
  have lm : m / 2 ^ 32 < 2 ^ 32 := by omega
  have ln : n / 2 ^ 32 < 2 ^ 32 := by omega
  have l0 : m % 2 ^ 32 < 2 ^ 32 := Nat.mod_lt _ (by omega)
  have k0 : n % 2 ^ 32 < 2 ^ 32 := Nat.mod_lt _ (by omega)
  rw [Nat.mod_eq_of_lt lm, Nat.mod_eq_of_lt ln] at h
  generalize m / 2 ^ 32 = m1 at *
  generalize n / 2 ^ 32 = n1 at *
  generalize m % 2 ^ 32 = m0 at *
  generalize n % 2 ^ 32 = n0 at *
  subst em en
  have hprod : (2 ^ 32 * m1 + m0) * (2 ^ 32 * n1 + n0) =
      2 ^ 64 * (m1 * n1) + 2 ^ 32 * (m1 * n0 + m0 * n1) + m0 * n0 := by ring
  rw [hprod]
  have hm0 : m0 * n0 ≤ (2 ^ 32 - 1) * (2 ^ 32 - 1) := Nat.mul_le_mul (by omega) (by omega)
  by_cases hb : 0 < m1 ∧ 0 < n1
  · have : 1 ≤ m1 * n1 := Nat.mul_pos hb.1 hb.2
    omega
  · have h1 : m1 * n0 + m0 * n1 ≤ (2 ^ 32 - 1) * (2 ^ 32 - 1) := by
      by_cases h0 : m1 = 0
      · subst h0
        have : m0 * n1 ≤ (2 ^ 32 - 1) * (2 ^ 32 - 1) := Nat.mul_le_mul (by omega) (by omega)
        omega
      · have h0' : n1 = 0 := by omega
        subst h0'
        have : m1 * n0 ≤ (2 ^ 32 - 1) * (2 ^ 32 - 1) := Nat.mul_le_mul (by omega) (by omega)
        omega
    rw [Nat.mod_eq_of_lt (show m1 * n0 + m0 * n1 < 2 ^ 64 by omega)] at h
    rcases h with (h | h) | h
    · exact absurd h hb
    · omega
    · by_cases h2 : m1 * n0 + m0 * n1 ≤ 2 ^ 32 - 1
      · rw [Nat.mod_eq_of_lt (by omega)] at h
        omega
      · omega

/-- Rounded up, k times are enough. -/
theorem ceil_mul (a k : Nat) (hk : 0 < k) : a ≤ k * ((a + k - 1) / k) := by
  have := Nat.div_add_mod (a + k - 1) k
  have h2 := Nat.mod_lt (a + k - 1) hk
  omega

theorem ceil_le (a k : Nat) (hk : 0 < k) : (a + k - 1) / k ≤ a := by
  rcases Nat.eq_zero_or_pos a with h | h
  · subst h
    rw [Nat.div_eq_of_lt (by omega)]
  · rw [Nat.div_le_iff_le_mul_add_pred hk]
    have : a ≤ k * a := Nat.le_mul_of_pos_left a hk
    omega

/-- calloc is asked for the product and the two redzones, or for more than there is. -/
theorem calloc_ok (rz n m : Nat) (hr : rz ≤ 0x10000000) (hn : n < W) (hm : m < W) :
    n * m % W + 2 * rz ≤ (callocArgs rz n m).1 * (callocArgs rz n m).2 ∨
      top < (callocArgs rz n m).1 * (callocArgs rz n m).2 := by
  have hmod : n * m % W ≤ n * m := Nat.mod_le _ _
  unfold callocArgs
  split
  · rename_i h
    right
    have := mulOver_sound hn hm h
    dsimp only
    have : top < W := by decide
    omega
  · split
    · rename_i h0
      left
      have : n * m = 0 := by rcases h0 with h | h <;> rw [h] <;> simp
      dsimp only
      omega
    · rename_i h0
      have hn0 : 0 < n := by omega
      have hm0 : 0 < m := by omega
      split
      · dsimp only
        split
        · rename_i h
          right
          have hx := ceil_le (rz * 2) n hn0
          dsimp only
          have h1 : m ≤ n * m := Nat.le_mul_of_pos_left m hn0
          generalize (rz * 2 + n - 1) / n = f at *
          unfold W top at *
          omega
        · rename_i h
          left
          dsimp only
          have hx := ceil_le (rz * 2) n hn0
          have hc := ceil_mul (rz * 2) n hn0
          have hlt : m + (rz * 2 + n - 1) / n < W := by unfold W at *; omega
          rw [Nat.mod_eq_of_lt hlt, Nat.mul_add]
          omega
      · dsimp only
        split
        · rename_i h
          right
          have hx := ceil_le (rz * 2) m hm0
          dsimp only
          have h1 : n ≤ n * m := Nat.le_mul_of_pos_right n hm0
          generalize (rz * 2 + m - 1) / m = f at *
          unfold W top at *
          omega
        · rename_i h
          left
          dsimp only
          have hx := ceil_le (rz * 2) m hm0
          have hc := ceil_mul (rz * 2) m hm0
          have hlt : n + (rz * 2 + m - 1) / m < W := by unfold W at *; omega
          rw [Nat.mod_eq_of_lt hlt, Nat.add_mul, Nat.mul_comm ((rz * 2 + m - 1) / m) m]
          omega

/-! ## The invariant -/

/-- What a block of the allocator is. -/
inductive Role where
  | none
  | app (p : Nat)
  | held
  | out (t : Nat)
  | going (t : Nat)
deriving DecidableEq

/-- The entry that a block of the application ought to have. -/
def entryOf (rz : Nat) (u : Nat) (p : Nat) (b : Blk) : Entry :=
  if b.pre then preEntry p b.size u else newEntry rz b.size b.kind b.real

/-- The same, but that a block from before the tool may have been looked at. -/
def Same (e : Entry) (f : Entry) : Prop := f = e ∨ (e.kind = .unknown ∧ f = { e with checked := true })

/-- The agreement. -/
structure Inv (rz : Nat) (role : Nat → Role) (s : St) : Prop where
  tab_none : ∀ p, s.own p = none → s.tab p = none
  tab_some : ∀ p b, s.own p = some b → ∃ u e, s.heap b.real = some u ∧
    s.tab p = some e ∧ Same (entryOf rz u p b) e
  room : ∀ p b u, s.own p = some b → s.heap b.real = some u →
    (b.pre = true ∧ p = b.real ∧ p + b.size ≤ b.real + u ∧ b.kind = .unknown) ∨
    (b.pre = false ∧ p = b.real + rz ∧ p + b.size + rz ≤ b.real + u ∧ b.kind ≠ .unknown)
  app : ∀ p b, s.own p = some b → role b.real = .app p
  app' : ∀ r p, role r = .app p → ∃ b, s.own p = some b ∧ b.real = r
  held : ∀ h, h ∈ s.held ↔ role h = .held
  nodup : s.held.Nodup
  out : ∀ r t, role r = .out t ↔ r ≠ 0 ∧ ∃ n k, s.pend t = .got n k r
  outRoom : ∀ t n k r, s.pend t = .got n k r → r ≠ 0 → k ≠ .unknown ∧ ∃ u, s.heap r = some u ∧ n + 2 * rz ≤ u
  going : ∀ a t, role a = .going t ↔ a ≠ 0 ∧ s.pend t = .freeing a
  asked : ∀ t n k b, s.pend t = .alloc n k b → k ≠ .unknown ∧ (n + 2 * rz ≤ b ∨ top < b)
  live : ∀ r, role r = .none ↔ s.heap r = none
  zero : s.heap 0 = none
  pos : ∀ r u, s.heap r = some u → 0 < u ∧ r + u ≤ top
  apart : ∀ r u r' u', s.heap r = some u → s.heap r' = some u' → r ≠ r' → r + u ≤ r' ∨ r' + u' ≤ r
  ok : s.bad = false

theorem inv_init (rz : Nat) : Inv rz (fun _ => .none) St.init where
  tab_none := by intro p _; rfl
  tab_some := by intro p b h; cases h
  room := by intro p b u h; cases h
  app := by intro p b h; cases h
  app' := by intro r p h; cases h
  held := by
    intro h
    constructor
    · intro h; cases h
    · intro h; cases h
  nodup := List.nodup_nil
  out := by
    intro r t
    constructor
    · intro h; cases h
    · rintro ⟨_, n, k, h⟩; cases h
  outRoom := by intro t n k r h; cases h
  going := by
    intro a t
    constructor
    · intro h; cases h
    · rintro ⟨_, h⟩; cases h
  asked := by intro t n k b h; cases h
  live := by intro r; exact ⟨fun _ => rfl, fun _ => rfl⟩
  zero := rfl
  pos := by intro r u h; cases h
  apart := by intro r u r' u' h; cases h
  ok := rfl

/-! ## Consequences -/

/-- The block is where it is said to be. -/
theorem Inv.block {rz role s} (i : Inv rz role s) {p b} (h : s.own p = some b) :
    ∃ u e, s.heap b.real = some u ∧ s.tab p = some e ∧ Same (entryOf rz u p b) e ∧
      ((b.pre = true ∧ p = b.real ∧ p + b.size ≤ b.real + u ∧ b.kind = .unknown) ∨
       (b.pre = false ∧ p = b.real + rz ∧ p + b.size + rz ≤ b.real + u ∧ b.kind ≠ .unknown)) := by
  obtain ⟨u, e, h1, h2, h3⟩ := i.tab_some p b h
  exact ⟨u, e, h1, h2, h3, i.room p b u h h1⟩

theorem Inv.nonzero {rz role s} (i : Inv rz role s) {p b} (h : s.own p = some b) : p ≠ 0 := by
  obtain ⟨u, _, h1, _, _, h3⟩ := i.block h
  intro h0
  have hz := i.zero
  rcases h3 with ⟨_, h3, _⟩ | ⟨_, h3, _⟩
  · rw [← h3, h0, hz] at h1; cases h1
  · have : b.real = 0 := by omega
    rw [this, hz] at h1; cases h1

theorem Inv.own_zero {rz role s} (i : Inv rz role s) : s.own 0 = none := by
  cases h : s.own 0 with
  | none => rfl
  | some b => exact absurd rfl (i.nonzero h)

/-- The facts of an entry. -/
structure Facts (rz p : Nat) (b : Blk) (e : Entry) : Prop where
  base : realBase rz p e = b.real
  kind : e.kind = b.kind
  checked : b.kind ≠ .unknown → e.checked = false
  valid : e.valid = true
  pre : e.preUs = b.pre
  stop : e.stop = p + b.size

theorem Inv.facts {rz role s} (i : Inv rz role s) {p b} (h : s.own p = some b) :
    ∃ e, s.tab p = some e ∧ Facts rz p b e := by
  obtain ⟨u, e, h1, h2, h4, h3⟩ := i.block h
  refine ⟨e, h2, ?_⟩
  have base : Facts rz p b (entryOf rz u p b) := by
    rcases h3 with ⟨g1, g2, g3, g4⟩ | ⟨g1, g2, g3, g4⟩
    · have he : entryOf rz u p b = preEntry p b.size u := by unfold entryOf; rw [if_pos g1]
      rw [he]
      exact ⟨by show p = b.real; exact g2, g4.symm, fun h => absurd g4 h, rfl, g1.symm, rfl⟩
    · have he : entryOf rz u p b = newEntry rz b.size b.kind b.real := by
        unfold entryOf; rw [g1, if_neg (by simp)]
      rw [he]
      exact ⟨by show p - rz = b.real; omega, rfl, fun _ => rfl, rfl, g1.symm,
        by show b.real + rz + b.size = p + b.size; omega⟩
  rcases h4 with h4 | ⟨h4, h5⟩
  · rw [h4]; exact base
  · rw [h5]
    exact ⟨base.base, base.kind, fun h => absurd (base.kind.symm.trans h4) h, base.valid, base.pre, base.stop⟩

theorem Inv.tab_iff {rz role s} (i : Inv rz role s) (p : Nat) : s.tab p = none ↔ s.own p = none := by
  constructor
  · intro h
    cases ho : s.own p with
    | none => rfl
    | some b => obtain ⟨e, h2, _⟩ := i.facts ho; rw [h] at h2; cases h2
  · exact i.tab_none p

/-- A block and one with redzones are not 4 bytes apart. -/
theorem Inv.far {rz role s} (i : Inv rz role s) (hr : 8 ≤ rz) {p q b c} (h : s.own p = some b) (hc : s.own q = some c)
    (hk : c.kind ≠ .unknown) (hq : q + 4 = p ∨ q = p + 4) : False := by
  obtain ⟨u, _, h1, _, _, h3⟩ := i.block h
  obtain ⟨v, _, g1, _, _, g3⟩ := i.block hc
  rcases g3 with ⟨_, _, _, g⟩ | ⟨_, g2, g4, _⟩
  · exact hk g
  · have hne : b.real ≠ c.real := by
      intro he
      have x := i.app p b h
      have y := i.app q c hc
      rw [he, y] at x
      injection x with x
      omega
    have hp := i.pos _ _ h1
    have hd := i.apart _ _ _ _ h1 g1 hne
    rcases h3 with ⟨_, h4, h5, _⟩ | ⟨_, h4, h5, _⟩
    · omega
    · omega

/-- Two with redzones are not 8 bytes apart. -/
theorem Inv.far8 {rz role s} (i : Inv rz role s) (hr : 8 ≤ rz) {p q b c} (h : s.own p = some b) (hc : s.own q = some c)
    (hb : b.kind ≠ .unknown) (hk : c.kind ≠ .unknown) (hq : p + 8 = q) : False := by
  obtain ⟨u, _, h1, _, _, h3⟩ := i.block h
  obtain ⟨v, _, g1, _, _, g3⟩ := i.block hc
  rcases g3 with ⟨_, _, _, g⟩ | ⟨_, g2, g4, _⟩
  · exact hk g
  · rcases h3 with ⟨_, _, _, h'⟩ | ⟨_, h4, h5, _⟩
    · exact hb h'
    · have hne : b.real ≠ c.real := by
        intro he
        have x := i.app p b h
        have y := i.app q c hc
        rw [he, y] at x
        injection x with x
        omega
      have hd := i.apart _ _ _ _ h1 g1 hne
      omega

/-! ## The lookups -/

/-- The kind of what the application owns there. -/
def kindAt (s : St) (q : Nat) : Kind :=
  match s.own q with
  | none => .unknown
  | some b => b.kind

theorem kindAt_some {s : St} {q : Nat} {k : Kind} (hk : k ≠ .unknown) :
    kindAt s q = k ↔ ∃ b, s.own q = some b ∧ b.kind = k := by
  unfold kindAt
  split
  · rename_i h
    constructor
    · intro h'; exact absurd h'.symm hk
    · rintro ⟨b, h', _⟩; rw [h] at h'; cases h'
  · rename_i b h
    constructor
    · intro h'; exact ⟨b, h, h'⟩
    · rintro ⟨b', h', h2⟩; rw [h] at h'; cases h'; exact h2

theorem typeAt_other (tab : Table) (q x : Nat) (h : x ≠ q) : (typeAt tab q).2 x = tab x := by
  unfold typeAt
  split
  · rfl
  · exact upd_other _ _ _ _ h

theorem typeAt_congr {tab tab' : Table} {q : Nat} (h : tab q = tab' q) : (typeAt tab q).1 = (typeAt tab' q).1 := by
  unfold typeAt
  rw [h]
  split <;> rfl

/-- Whether the entry, if any, has been looked at. -/
def Marked (tab : Table) (q : Nat) : Prop := ∀ e, tab q = some e → e.checked = true

theorem typeAt_marked {tab : Table} {q : Nat} (h : Marked tab q) : (typeAt tab q).1 = .unknown := by
  unfold typeAt
  split
  · rfl
  · rename_i e he
    unfold entryType
    rw [if_pos (h e he)]

theorem typeAt_marks (tab : Table) (q : Nat) : Marked (typeAt tab q).2 q := by
  intro e he
  unfold typeAt at he
  split at he
  · rename_i h; dsimp only at he; rw [h] at he; cases he
  · rename_i e' h
    dsimp only at he
    rw [upd_self] at he
    cases he
    unfold entryType
    split
    · assumption
    · rfl

theorem typeAt_keeps {tab : Table} {q x : Nat} (h : Marked tab x) : Marked (typeAt tab q).2 x := by
  by_cases hx : x = q
  · subst hx; exact typeAt_marks tab x
  · intro e he
    rw [typeAt_other tab q x hx] at he
    exact h e he

theorem Inv.typeAt {rz role s} (i : Inv rz role s) (q : Nat) : (Wrap.typeAt s.tab q).1 = kindAt s q := by
  unfold kindAt
  cases h : s.own q with
  | none =>
    unfold Wrap.typeAt
    rw [i.tab_none q h]
  | some b =>
    obtain ⟨e, he, f⟩ := i.facts h
    unfold Wrap.typeAt
    rw [he]
    dsimp only
    unfold entryType
    split
    · rename_i hc
      by_cases hk : b.kind = .unknown
      · exact hk.symm
      · rw [f.checked hk] at hc; cases hc
    · exact f.kind

/-- Only the entries 4 bytes before and after are looked at. -/
def Near (p : Nat) (tab tab' : Table) : Prop :=
  ∀ x, x ≠ p → tab' x = tab x ∨
    ((x = p - 4 ∨ x = p + 4) ∧ ∃ e, tab x = some e ∧ tab' x = some { e with checked := true })

theorem near_refl (p : Nat) (tab : Table) : Near p tab tab := fun _ _ => Or.inl rfl

theorem near_trans {p : Nat} {a b c : Table} (h : Near p a b) (h' : Near p b c) : Near p a c := by
  intro x hx
  rcases h x hx with h1 | ⟨h1, e, h2, h3⟩
  · rcases h' x hx with g1 | ⟨g1, f, g2, g3⟩
    · exact Or.inl (g1.trans h1)
    · exact Or.inr ⟨g1, f, h1 ▸ g2, g3⟩
  · rcases h' x hx with g1 | ⟨g1, f, g2, g3⟩
    · exact Or.inr ⟨h1, e, h2, g1.trans h3⟩
    · refine Or.inr ⟨h1, e, h2, ?_⟩
      rw [h3] at g2
      cases g2
      exact g3

theorem near_typeAt {p q : Nat} (tab : Table) (hq : q = p ∨ q = p - 4 ∨ q = p + 4) : Near p tab (typeAt tab q).2 := by
  intro x hx
  by_cases h : x = q
  · subst h
    unfold typeAt
    split
    · exact Or.inl rfl
    · rename_i e he
      dsimp only
      rw [upd_self]
      unfold entryType
      split
      · exact Or.inl he.symm
      · refine Or.inr ⟨?_, e, he, rfl⟩
        rcases hq with hq | hq
        · exact absurd hq hx
        · exact hq
  · exact Or.inl (typeAt_other tab q x h)

theorem near_checkAt (p : Nat) (how : Kind) (tab : Table) : Near p tab (checkAt tab p how).1 := by
  have h1 := near_typeAt (p := p) tab (Or.inl rfl)
  have h2 := near_trans h1 (near_typeAt (p := p) (typeAt tab p).2 (Or.inr (Or.inl rfl)))
  have h3 := near_trans h2 (near_typeAt (p := p) (typeAt (typeAt tab p).2 (p - 4)).2 (Or.inr (Or.inr rfl)))
  unfold checkAt
  dsimp only
  split
  · exact h1
  · split
    · exact h2
    · exact h3

theorem near_checkFree (p : Nat) (tab : Table) : Near p tab (checkFree tab p).1 := by
  unfold checkFree
  split
  · intro x hx; exact Or.inl (upd_other _ _ _ _ hx)
  · exact near_checkAt p .malloc tab

/-- The table after a free. -/
theorem near_free (rz p : Nat) (how : Kind) (inner : Bool) (tab : Table) : Near p tab (freePre rz p how inner tab).tab := by
  have ha : Near p tab (if how ≠ .malloc then checkAt tab p how else (tab, [])).1 := by
    split
    · exact near_checkAt p how tab
    · exact near_refl p tab
  unfold freePre
  generalize (if how ≠ .malloc then checkAt tab p how else (tab, [])) = a at *
  have hb : Near p tab (if inner = true then (a.1, []) else checkFree a.1 p : Table × List Report).1 := by
    split
    · exact ha
    · exact near_trans ha (near_checkFree p a.1)
  dsimp only
  split
  · exact hb
  · intro x hx
    rcases hb x hx with h | h
    · exact Or.inl ((upd_other _ _ _ _ hx).trans h)
    · obtain ⟨h1, e, h2, h3⟩ := h
      exact Or.inr ⟨h1, e, h2, (upd_other _ _ _ _ hx).trans h3⟩

/-! ## Frees -/

theorem compare_unknown (p : Nat) (how : Kind) : compareKinds .unknown p how = [] := by
  unfold compareKinds; rw [if_neg (by simp)]

/-- checkAt for what is owned. -/
theorem Inv.checkAt_own {rz role s} (i : Inv rz role s) (hr : 8 ≤ rz) {p b} (h : s.own p = some b) (how : Kind) :
    (checkAt s.tab p how).2 = compareKinds b.kind p how ∧ Marked (checkAt s.tab p how).1 p := by
  have hk : (Wrap.typeAt s.tab p).1 = b.kind := by rw [i.typeAt]; unfold kindAt; rw [h]
  have hp := i.nonzero h
  unfold checkAt
  dsimp only
  rw [hk]
  split
  · exact ⟨rfl, typeAt_marks _ _⟩
  · rename_i hb
    rw [Decidable.not_not] at hb
    have far : ∀ q, (q = p - 4 ∨ q = p + 4) → kindAt s q = .unknown := by
      intro q hq
      unfold kindAt
      cases hc : s.own q with
      | none => rfl
      | some c =>
        dsimp only
        apply Decidable.byContradiction
        intro hk'
        refine i.far hr h hc hk' ?_
        have := i.nonzero hc
        omega
    by_cases h4 : p - 4 = p
    · omega
    · have h1 : (Wrap.typeAt (Wrap.typeAt s.tab p).2 (p - 4)).1 = .unknown := by
        rw [typeAt_congr (typeAt_other s.tab p (p - 4) h4), i.typeAt]
        exact far _ (Or.inl rfl)
      have h2 : (Wrap.typeAt (Wrap.typeAt (Wrap.typeAt s.tab p).2 (p - 4)).2 (p + 4)).1 = .unknown := by
        rw [typeAt_congr ((typeAt_other _ (p - 4) (p + 4) (by omega)).trans (typeAt_other s.tab p (p + 4) (by omega))),
          i.typeAt]
        exact far _ (Or.inr rfl)
      rw [h1, if_neg (by simp), h2, hb]
      refine ⟨by rw [compare_unknown, compare_unknown], ?_⟩
      exact typeAt_keeps (typeAt_keeps (typeAt_marks _ _))

theorem checkFree_marked {tab : Table} {p : Nat} {e : Entry} (he : tab p = some e) (h : e.checked = true) :
    (checkFree tab p).2 = [] := by
  unfold checkFree
  rw [he]
  dsimp only
  unfold entryType
  rw [if_pos h]
  exact compare_unknown p .malloc

/-- A free of what is owned. -/
theorem Inv.free_own {rz role s} (i : Inv rz role s) (hr : 8 ≤ rz) {p b} (h : s.own p = some b) (how : Kind)
    (inner : Bool) (hi : inner = true → how = .malloc) :
    (freePre rz p how inner s.tab).gone = some b.real ∧
      (freePre rz p how inner s.tab).reps = (if inner then [] else compareKinds b.kind p how) ∧
      (freePre rz p how inner s.tab).tab p = none := by
  obtain ⟨e, he, f⟩ := i.facts h
  have hc : (checkFree s.tab p).2 = compareKinds b.kind p .malloc := by
    unfold checkFree
    rw [he]
    dsimp only
    unfold entryType
    split
    · rename_i hc
      by_cases hk : b.kind = .unknown
      · rw [hk]
      · rw [f.checked hk] at hc; cases hc
    · rw [f.kind]
  by_cases hm : how = .malloc
  · subst hm
    unfold freePre
    rw [if_neg (by simp)]
    dsimp only
    rw [he]
    dsimp only
    refine ⟨by rw [f.base], ?_, upd_self _ _ _⟩
    cases inner
    · simpa using hc
    · rfl
  · have hin : inner = false := by
      cases inner
      · rfl
      · exact absurd (hi rfl) hm
    subst hin
    obtain ⟨h1, h2⟩ := i.checkAt_own hr h how
    -- the entry is still there
    have h3 : ∃ e', (checkAt s.tab p how).1 p = some e' ∧ realBase rz p e' = b.real := by
      have step : ∀ (tab : Table) (q : Nat), (∃ e', tab p = some e' ∧ realBase rz p e' = b.real) →
          ∃ e', (Wrap.typeAt tab q).2 p = some e' ∧ realBase rz p e' = b.real := by
        rintro tab q ⟨e', g1, g2⟩
        by_cases hq : p = q
        · subst hq
          unfold Wrap.typeAt
          rw [g1]
          dsimp only
          rw [upd_self]
          refine ⟨_, rfl, ?_⟩
          unfold entryType
          split
          · exact g2
          · exact g2
        · rw [typeAt_other tab q p hq]; exact ⟨e', g1, g2⟩
      have s1 := step s.tab p ⟨e, he, f.base⟩
      have s2 := step _ (p - 4) s1
      have s3 := step _ (p + 4) s2
      unfold checkAt
      dsimp only
      split
      · exact s1
      · split
        · exact s2
        · exact s3
    obtain ⟨e', h4, h5⟩ := h3
    unfold freePre
    rw [if_pos hm]
    dsimp only
    rw [h4]
    dsimp only
    refine ⟨by rw [h5], ?_, upd_self _ _ _⟩
    rw [if_neg (by simp), checkFree_marked h4 (h2 e' h4), h1]
    simp

theorem checkAt_quiet {T : Table} {p : Nat} (how : Kind) (h1 : (typeAt T p).1 = .unknown)
    (h2 : (typeAt (typeAt T p).2 (p - 4)).1 = .unknown)
    (h3 : (typeAt (typeAt (typeAt T p).2 (p - 4)).2 (p + 4)).1 = .unknown) : (checkAt T p how).2 = [] := by
  unfold checkAt
  dsimp only
  rw [h1, if_neg (by simp), h2, if_neg (by simp), h3]
  exact compare_unknown (p + 4) how

/-- The reports of checkAt for what is not owned. -/
theorem Inv.checkAt_none {rz role s} (i : Inv rz role s) (hr : 8 ≤ rz) {p} (h : s.own p = none) (how : Kind) :
    (∀ r, r ∈ (checkAt s.tab p how).2 ↔ ∃ q k, r = .mismatch q k how ∧ k ≠ .unknown ∧ k ≠ how ∧ kindAt s q = k ∧
      (q + 4 = p ∨ q = p + 4)) ∧
    (checkAt s.tab p how).1 p = none ∧
    (checkAt (checkAt s.tab p how).1 p .malloc).2 = [] := by
  have hz := i.own_zero
  have tp := i.tab_none p h
  have hp : Wrap.typeAt s.tab p = (.unknown, s.tab) := by unfold Wrap.typeAt; rw [tp]
  have k1 : (Wrap.typeAt s.tab (p - 4)).1 = kindAt s (p - 4) := i.typeAt _
  have k2 : (Wrap.typeAt (Wrap.typeAt s.tab (p - 4)).2 (p + 4)).1 = kindAt s (p + 4) := by
    rw [typeAt_congr (typeAt_other s.tab (p - 4) (p + 4) (by omega)), i.typeAt]
  have both : kindAt s (p - 4) ≠ .unknown → kindAt s (p + 4) = .unknown := by
    intro h1
    apply Decidable.byContradiction
    intro h2
    obtain ⟨b, g1, g2⟩ := (kindAt_some h1).mp rfl
    obtain ⟨c, g3, g4⟩ := (kindAt_some h2).mp rfl
    have := i.nonzero g1
    exact i.far8 hr g1 g3 (g2 ▸ h1) (g4 ▸ h2) (by omega)
  have tpn : ∀ (tab : Table) (q : Nat), tab p = none → (Wrap.typeAt tab q).2 p = none := by
    intro tab q ht
    by_cases hq : p = q
    · subst hq; unfold Wrap.typeAt; rw [ht]; exact ht
    · rw [typeAt_other tab q p hq]; exact ht
  have mem : ∀ (q : Nat) (r : Report), r ∈ compareKinds (kindAt s q) q how ↔
      r = .mismatch q (kindAt s q) how ∧ kindAt s q ≠ .unknown ∧ kindAt s q ≠ how := by
    intro q r
    unfold compareKinds
    split
    · rename_i hh
      rw [List.mem_singleton]
      exact ⟨fun g => ⟨g, hh.1, hh.2⟩, fun g => g.1⟩
    · rename_i hh
      constructor
      · intro g; cases g
      · intro g; exact absurd ⟨g.2.1, g.2.2⟩ hh
  have mp : ∀ tab : Table, tab p = none → Marked tab p := by
    intro tab h e he; rw [h] at he; cases he
  by_cases h1 : kindAt s (p - 4) ≠ .unknown
  · have eq : checkAt s.tab p how = ((Wrap.typeAt s.tab (p - 4)).2, compareKinds (kindAt s (p - 4)) (p - 4) how) := by
      unfold checkAt
      rw [hp]
      dsimp only
      rw [if_neg (by simp), k1, if_pos h1]
    rw [eq]
    have hp4 : p - 4 + 4 = p := by
      obtain ⟨b, g1, _⟩ := (kindAt_some h1).mp rfl
      have := i.nonzero g1
      omega
    refine ⟨?_, tpn _ _ tp, ?_⟩
    · intro r
      rw [mem]
      constructor
      · rintro ⟨g1, g2, g3⟩
        exact ⟨p - 4, _, g1, g2, g3, rfl, Or.inl hp4⟩
      · rintro ⟨q, k, g1, g2, g3, g4, g5⟩
        have : q = p - 4 := by
          rcases g5 with g5 | g5
          · omega
          · rw [g5, both h1] at g4; exact absurd g4.symm g2
        subst this
        subst g4
        exact ⟨g1, g2, g3⟩
    · apply checkAt_quiet
      · exact typeAt_marked (mp _ (tpn _ _ tp))
      · exact typeAt_marked (typeAt_keeps (typeAt_marks _ _))
      · rw [typeAt_congr (((typeAt_other _ (p - 4) (p + 4) (by omega)).trans (typeAt_other _ p (p + 4) (by omega))).trans
          (typeAt_other s.tab (p - 4) (p + 4) (by omega))), i.typeAt]
        exact both h1
  · have eq : checkAt s.tab p how = ((Wrap.typeAt (Wrap.typeAt s.tab (p - 4)).2 (p + 4)).2,
        compareKinds (kindAt s (p + 4)) (p + 4) how) := by
      unfold checkAt
      rw [hp]
      dsimp only
      rw [if_neg (by simp), k1, if_neg h1, k2]
    rw [eq]
    rw [Decidable.not_not] at h1
    refine ⟨?_, tpn _ _ (tpn _ _ tp), ?_⟩
    · intro r
      rw [mem]
      constructor
      · rintro ⟨g1, g2, g3⟩
        exact ⟨p + 4, _, g1, g2, g3, rfl, Or.inr rfl⟩
      · rintro ⟨q, k, g1, g2, g3, g4, g5⟩
        have : q = p + 4 := by
          rcases g5 with g5 | g5
          · have hq : q = p - 4 := by omega
            rw [hq, h1] at g4; exact absurd g4.symm g2
          · exact g5
        subst this
        subst g4
        exact ⟨g1, g2, g3⟩
    · apply checkAt_quiet
      · exact typeAt_marked (mp _ (tpn _ _ (tpn _ _ tp)))
      · exact typeAt_marked (typeAt_keeps (typeAt_keeps (typeAt_marks _ _)))
      · exact typeAt_marked (typeAt_keeps (typeAt_keeps (typeAt_marks _ _)))

/-- A free of what is not owned. -/
theorem Inv.free_none {rz role s} (i : Inv rz role s) (hr : 8 ≤ rz) {p} (h : s.own p = none) (how : Kind)
    (inner : Bool) (hi : inner = true → how = .malloc) :
    (freePre rz p how inner s.tab).gone = none ∧
      (∀ r, r ∈ (freePre rz p how inner s.tab).reps ↔ r = (if p = 0 then .nullFree else .invalid p) ∨
        (inner = false ∧ ∃ q k, r = .mismatch q k how ∧ k ≠ .unknown ∧ k ≠ how ∧ kindAt s q = k ∧
          (q + 4 = p ∨ q = p + 4))) ∧
      (freePre rz p how inner s.tab).tab p = none := by
  have tp := i.tab_none p h
  by_cases hm : how = .malloc
  · subst hm
    obtain ⟨c1, c2, c3⟩ := i.checkAt_none hr h .malloc
    unfold freePre
    rw [if_neg (by simp)]
    dsimp only
    rw [tp]
    dsimp only
    have hc : checkFree s.tab p = checkAt s.tab p .malloc := by unfold checkFree; rw [tp]
    rw [hc]
    cases inner
    · refine ⟨rfl, ?_, c2⟩
      intro r
      rw [if_neg (by simp), List.nil_append, List.mem_append, c1, List.mem_singleton]
      constructor
      · rintro (g | g)
        · exact Or.inr ⟨rfl, g⟩
        · exact Or.inl g
      · rintro (g | ⟨_, g⟩)
        · exact Or.inr g
        · exact Or.inl g
    · refine ⟨rfl, ?_, tp⟩
      intro r
      rw [if_pos rfl, List.nil_append, List.nil_append, List.mem_singleton]
      constructor
      · exact Or.inl
      · rintro (g | ⟨g, _⟩)
        · exact g
        · cases g
  · have hin : inner = false := by
      cases inner
      · rfl
      · exact absurd (hi rfl) hm
    subst hin
    obtain ⟨c1, c2, c3⟩ := i.checkAt_none hr h how
    unfold freePre
    rw [if_pos hm]
    dsimp only
    rw [c2]
    dsimp only
    have hc : checkFree (checkAt s.tab p how).1 p = checkAt (checkAt s.tab p how).1 p .malloc := by
      unfold checkFree; rw [c2]
    rw [hc, if_neg (by simp), c3]
    refine ⟨rfl, ?_, ?_⟩
    · intro r
      rw [List.append_nil, List.mem_append, c1, List.mem_singleton]
      constructor
      · rintro (g | g)
        · exact Or.inr ⟨rfl, g⟩
        · exact Or.inl g
      · rintro (g | ⟨_, g⟩)
        · exact Or.inr g
        · exact Or.inl g
    · have tpn : ∀ (tab : Table) (q : Nat), tab p = none → (Wrap.typeAt tab q).2 p = none := by
        intro tab q ht
        by_cases hq : p = q
        · subst hq; unfold Wrap.typeAt; rw [ht]; exact ht
        · rw [typeAt_other tab q p hq]; exact ht
      have s1 := tpn _ p c2
      have s2 := tpn _ (p - 4) s1
      have s3 := tpn _ (p + 4) s2
      generalize (checkAt s.tab p how).1 = T at *
      unfold checkAt
      dsimp only
      split
      · exact s1
      · split
        · exact s2
        · exact s3

/-! ## The invariant is kept -/

theorem Inv.fresh {rz role s} (i : Inv rz role s) {r u : Nat} (h : Fresh s r u) : s.heap r = none := by
  cases hh : s.heap r with
  | none => rfl
  | some v => have := h.2.2.2 r v hh; have := h.2.1; have := i.pos r v hh; omega

/-- Nothing of the application is in a room that is free. -/
theorem Inv.fresh_own {rz role s} (i : Inv rz role s) {r u x : Nat} (h : Fresh s r u) (h1 : r ≤ x) (h2 : x < r + u) :
    s.own x = none := by
  cases hh : s.own x with
  | none => rfl
  | some b =>
    obtain ⟨v, _, g1, _, _, g3⟩ := i.block hh
    have hp := i.pos _ _ g1
    have ha := h.2.2.2 _ _ g1
    rcases g3 with ⟨_, g4, _⟩ | ⟨_, g4, g5, _⟩
    · omega
    · exfalso
      omega

theorem inv_attach {rz role s} (i : Inv rz role s) {p size u : Nat} (he : enabled rz s (.attach p size u)) :
    Inv rz (upd role p (.app p)) (step rz s (.attach p size u)).1 := by
  obtain ⟨hs, hf⟩ := he
  have hn := i.fresh hf
  have ho := i.fresh_own hf (Nat.le_refl p) (by have := hf.2.1; omega)
  have hrn := (i.live p).mpr hn
  refine ⟨?_, ?_, ?_, ?_, ?_, ?_, i.nodup, ?_, ?_, ?_, i.asked, ?_, ?_, ?_, ?_, i.ok⟩
  · intro x hx
    show upd s.tab p _ x = none
    change upd s.own p _ x = none at hx
    by_cases h : x = p
    · subst h; rw [upd_self] at hx; cases hx
    · rw [upd_other _ _ _ _ h] at hx ⊢; exact i.tab_none x hx
  · intro x b hx
    change upd s.own p _ x = some b at hx
    show ∃ u' e, upd s.heap p _ b.real = some u' ∧ upd s.tab p _ x = some e ∧ _
    by_cases h : x = p
    · subst h; rw [upd_self] at hx; cases hx
      exact ⟨u, _, upd_self _ _ _, upd_self _ _ _, Or.inl rfl⟩
    · rw [upd_other _ _ _ _ h] at hx
      obtain ⟨v, e, g1, g2, g3⟩ := i.tab_some x b hx
      refine ⟨v, e, ?_, ?_, g3⟩
      · rw [upd_other _ _ _ _ (by intro hh; rw [hh, hn] at g1; cases g1)]; exact g1
      · rw [upd_other _ _ _ _ h]; exact g2
  · intro x b v hx hv
    change upd s.own p _ x = some b at hx
    change upd s.heap p _ b.real = some v at hv
    by_cases h : x = p
    · subst h; rw [upd_self] at hx; cases hx
      dsimp only at hv
      rw [upd_self] at hv
      cases hv
      exact Or.inl ⟨rfl, rfl, by show x + size ≤ x + u; omega, rfl⟩
    · rw [upd_other _ _ _ _ h] at hx
      obtain ⟨v', e, g1, _⟩ := i.tab_some x b hx
      rw [upd_other _ _ _ _ (by intro hh; rw [hh, hn] at g1; cases g1)] at hv
      exact i.room x b v hx hv
  · intro x b hx
    change upd s.own p _ x = some b at hx
    by_cases h : x = p
    · subst h; rw [upd_self] at hx; cases hx; exact upd_self _ _ _
    · rw [upd_other _ _ _ _ h] at hx
      obtain ⟨v', e, g1, _⟩ := i.tab_some x b hx
      rw [upd_other _ _ _ _ (by intro hh; rw [hh, hn] at g1; cases g1)]
      exact i.app x b hx
  · intro r x hr
    show ∃ b, upd s.own p _ x = some b ∧ _
    by_cases h : r = p
    · subst h; rw [upd_self] at hr; cases hr
      exact ⟨_, upd_self _ _ _, rfl⟩
    · rw [upd_other _ _ _ _ h] at hr
      obtain ⟨b, g1, g2⟩ := i.app' r x hr
      refine ⟨b, ?_, g2⟩
      rw [upd_other _ _ _ _ (by intro hh; rw [hh, ho] at g1; cases g1)]
      exact g1
  · intro h
    by_cases hh : h = p
    · subst hh
      rw [upd_self]
      constructor
      · intro g; have := (i.held h).mp g; rw [hrn] at this; cases this
      · intro g; cases g
    · rw [upd_other _ _ _ _ hh]; exact i.held h
  · intro r t
    by_cases hh : r = p
    · subst hh
      rw [upd_self]
      constructor
      · intro g; cases g
      · intro g; have := (i.out r t).mpr g; rw [hrn] at this; cases this
    · rw [upd_other _ _ _ _ hh]; exact i.out r t
  · intro t n k r h h0
    obtain ⟨g0, v, g1, g2⟩ := i.outRoom t n k r h h0
    refine ⟨g0, v, ?_, g2⟩
    show upd s.heap p _ r = some v
    rw [upd_other _ _ _ _ (by intro hh; rw [hh, hn] at g1; cases g1)]; exact g1
  · intro r t
    by_cases hh : r = p
    · subst hh
      rw [upd_self]
      constructor
      · intro g; cases g
      · intro g; have := (i.going r t).mpr g; rw [hrn] at this; cases this
    · rw [upd_other _ _ _ _ hh]; exact i.going r t
  · intro r
    show _ ↔ upd s.heap p _ r = none
    by_cases hh : r = p
    · subst hh
      rw [upd_self, upd_self]
      constructor
      · intro g; cases g
      · intro g; cases g
    · rw [upd_other _ _ _ _ hh, upd_other _ _ _ _ hh]; exact i.live r
  · show upd s.heap p _ 0 = none
    rw [upd_other _ _ _ _ (by have := hf.1; omega)]; exact i.zero
  · intro r v hv
    change upd s.heap p _ r = some v at hv
    by_cases hh : r = p
    · subst hh; rw [upd_self] at hv; cases hv; exact ⟨hf.2.1, hf.2.2.1⟩
    · rw [upd_other _ _ _ _ hh] at hv; exact i.pos r v hv
  · intro r v r' v' hv hv' hne
    change upd s.heap p _ r = some v at hv
    change upd s.heap p _ r' = some v' at hv'
    by_cases hh : r = p
    · subst hh
      rw [upd_self] at hv; cases hv
      rw [upd_other _ _ _ _ (fun hh => hne hh.symm)] at hv'
      exact (hf.2.2.2 r' v' hv').symm
    · rw [upd_other _ _ _ _ hh] at hv
      by_cases hh' : r' = p
      · subst hh'
        rw [upd_self] at hv'; cases hv'
        exact hf.2.2.2 r v hv
      · rw [upd_other _ _ _ _ hh'] at hv'
        exact i.apart r v r' v' hv hv' hne

/-- A thread that is not at anything goes for memory. -/
theorem inv_ask {rz role s} (i : Inv rz role s) {t n b : Nat} {k : Kind} (h0 : s.pend t = .idle) (hk : k ≠ .unknown)
    (hb : n + 2 * rz ≤ b ∨ top < b) : Inv rz role { s with pend := upd s.pend t (.alloc n k b) } := by
  refine ⟨i.tab_none, i.tab_some, i.room, i.app, i.app', i.held, i.nodup, ?_, ?_, ?_, ?_, i.live, i.zero, i.pos,
    i.apart, i.ok⟩
  · intro r t'
    rw [i.out r t']
    dsimp only
    by_cases h : t' = t
    · subst h; rw [upd_self, h0]
      constructor <;> rintro ⟨_, _, _, h⟩ <;> cases h
    · rw [upd_other _ _ _ _ h]
  · intro t' n' k' r h
    dsimp only at h
    by_cases ht : t' = t
    · subst ht; rw [upd_self] at h; cases h
    · rw [upd_other _ _ _ _ ht] at h; exact i.outRoom t' n' k' r h
  · intro r t'
    rw [i.going r t']
    dsimp only
    by_cases h : t' = t
    · subst h; rw [upd_self, h0]
      constructor <;> rintro ⟨_, h⟩ <;> cases h
    · rw [upd_other _ _ _ _ h]
  · intro t' n' k' b' h
    dsimp only at h
    by_cases ht : t' = t
    · subst ht; rw [upd_self] at h; cases h; exact ⟨hk, hb⟩
    · rw [upd_other _ _ _ _ ht] at h; exact i.asked t' n' k' b' h

theorem inv_under {rz role s} (i : Inv rz role s) {t r u : Nat} (he : enabled rz s (.under t r u)) :
    ∃ role', Inv rz role' (step rz s (.under t r u)).1 := by
  obtain ⟨n, k, b, hp, hr⟩ := he
  obtain ⟨hk, hb⟩ := i.asked t n k b hp
  have hst : (step rz s (.under t r u)).1 =
      { s with
        heap := if r = 0 then s.heap else upd s.heap r (some u)
        pend := upd s.pend t (.got n k r) } := by
    unfold step
    dsimp only
    rw [hp]
  rw [hst]
  by_cases hr0 : r = 0
  · subst hr0
    rw [if_pos rfl]
    refine ⟨role, i.tab_none, i.tab_some, i.room, i.app, i.app', i.held, i.nodup, ?_, ?_, ?_, ?_, i.live, i.zero,
      i.pos, i.apart, i.ok⟩
    · intro x t'
      rw [i.out x t']
      dsimp only
      by_cases h : t' = t
      · subst h; rw [upd_self, hp]
        constructor
        · rintro ⟨_, _, _, h⟩; cases h
        · rintro ⟨g, _, _, h⟩; cases h; exact absurd rfl g
      · rw [upd_other _ _ _ _ h]
    · intro t' n' k' x h h0
      dsimp only at h
      by_cases ht : t' = t
      · subst ht; rw [upd_self] at h; cases h; exact absurd rfl h0
      · rw [upd_other _ _ _ _ ht] at h; exact i.outRoom t' n' k' x h h0
    · intro x t'
      rw [i.going x t']
      dsimp only
      by_cases h : t' = t
      · subst h; rw [upd_self, hp]
        constructor <;> rintro ⟨_, h⟩ <;> cases h
      · rw [upd_other _ _ _ _ h]
    · intro t' n' k' b' h
      dsimp only at h
      by_cases ht : t' = t
      · subst ht; rw [upd_self] at h; cases h
      · rw [upd_other _ _ _ _ ht] at h; exact i.asked t' n' k' b' h
  · rw [if_neg hr0]
    obtain ⟨hf, hbu⟩ := hr.resolve_left hr0
    have hn := i.fresh hf
    have hrn := (i.live r).mpr hn
    have ne : ∀ x v, s.heap x = some v → x ≠ r := by
      intro x v h hh; rw [hh, hn] at h; cases h
    have ne' : ∀ x, role x ≠ .none → x ≠ r := by
      intro x h hh; rw [hh] at h; exact h hrn
    refine ⟨upd role r (.out t), i.tab_none, ?_, ?_, ?_, ?_, ?_, i.nodup, ?_, ?_, ?_, ?_, ?_, ?_, ?_, ?_, i.ok⟩
    · intro x b' hx
      obtain ⟨v, e, g1, g2, g3⟩ := i.tab_some x b' hx
      exact ⟨v, e, (upd_other _ _ _ _ (ne _ _ g1)).trans g1, g2, g3⟩
    · intro x b' v hx hv
      obtain ⟨v', e, g1, _⟩ := i.tab_some x b' hx
      dsimp only at hv
      rw [upd_other _ _ _ _ (ne _ _ g1)] at hv
      exact i.room x b' v hx hv
    · intro x b' hx
      obtain ⟨v', e, g1, _⟩ := i.tab_some x b' hx
      rw [upd_other _ _ _ _ (ne _ _ g1)]
      exact i.app x b' hx
    · intro x p hx
      by_cases h : x = r
      · subst h; rw [upd_self] at hx; cases hx
      · rw [upd_other _ _ _ _ h] at hx; exact i.app' x p hx
    · intro x
      rw [i.held x]
      by_cases h : x = r
      · subst h; rw [upd_self, hrn]
        constructor <;> intro h <;> cases h
      · rw [upd_other _ _ _ _ h]
    · intro x t'
      dsimp only
      by_cases h : x = r
      · subst h
        rw [upd_self]
        by_cases ht : t' = t
        · subst ht; rw [upd_self]
          exact ⟨fun _ => ⟨hr0, n, k, rfl⟩, fun _ => rfl⟩
        · rw [upd_other _ _ _ _ ht]
          constructor
          · intro h; cases h; exact absurd rfl ht
          · intro h; have := (i.out x t').mpr h; rw [hrn] at this; cases this
      · rw [upd_other _ _ _ _ h, i.out x t']
        by_cases ht : t' = t
        · subst ht; rw [upd_self, hp]
          constructor
          · rintro ⟨_, _, _, h⟩; cases h
          · rintro ⟨_, _, _, h'⟩; cases h'; exact absurd rfl h
        · rw [upd_other _ _ _ _ ht]
    · intro t' n' k' x h h0
      dsimp only at h ⊢
      by_cases ht : t' = t
      · subst ht; rw [upd_self] at h; cases h
        refine ⟨hk, u, upd_self _ _ _, ?_⟩
        have := hf.2.2.1
        omega
      · rw [upd_other _ _ _ _ ht] at h
        obtain ⟨g0, v, g1, g2⟩ := i.outRoom t' n' k' x h h0
        exact ⟨g0, v, (upd_other _ _ _ _ (ne _ _ g1)).trans g1, g2⟩
    · intro x t'
      dsimp only
      by_cases h : x = r
      · subst h
        rw [upd_self]
        constructor
        · intro h; cases h
        · rintro ⟨g, h⟩
          by_cases ht : t' = t
          · subst ht; rw [upd_self] at h; cases h
          · rw [upd_other _ _ _ _ ht] at h
            have := (i.going x t').mpr ⟨g, h⟩; rw [hrn] at this; cases this
      · rw [upd_other _ _ _ _ h, i.going x t']
        by_cases ht : t' = t
        · subst ht; rw [upd_self, hp]
          constructor <;> rintro ⟨_, h⟩ <;> cases h
        · rw [upd_other _ _ _ _ ht]
    · intro t' n' k' b' h
      dsimp only at h
      by_cases ht : t' = t
      · subst ht; rw [upd_self] at h; cases h
      · rw [upd_other _ _ _ _ ht] at h; exact i.asked t' n' k' b' h
    · intro x
      dsimp only
      by_cases h : x = r
      · subst h; rw [upd_self, upd_self]
        constructor <;> intro h <;> cases h
      · rw [upd_other _ _ _ _ h, upd_other _ _ _ _ h]; exact i.live x
    · exact (upd_other _ _ _ _ (Ne.symm hr0)).trans i.zero
    · intro x v hv
      dsimp only at hv
      by_cases h : x = r
      · subst h; rw [upd_self] at hv; cases hv; exact ⟨hf.2.1, hf.2.2.1⟩
      · rw [upd_other _ _ _ _ h] at hv; exact i.pos x v hv
    · intro x v x' v' hv hv' hne
      dsimp only at hv hv'
      by_cases hh : x = r
      · subst hh
        rw [upd_self] at hv; cases hv
        rw [upd_other _ _ _ _ (fun hh => hne hh.symm)] at hv'
        exact (hf.2.2.2 x' v' hv').symm
      · rw [upd_other _ _ _ _ hh] at hv
        by_cases hh' : x' = r
        · subst hh'
          rw [upd_self] at hv'; cases hv'
          exact hf.2.2.2 x v hv
        · rw [upd_other _ _ _ _ hh'] at hv'
          exact i.apart x v x' v' hv hv' hne

/-- A thread that is done. -/
theorem inv_idle {rz role s} (i : Inv rz role s) {t : Nat} (h : (∃ n k, s.pend t = .got n k 0) ∨ s.pend t = .freeing 0) :
    Inv rz role { s with pend := upd s.pend t .idle } := by
  refine ⟨i.tab_none, i.tab_some, i.room, i.app, i.app', i.held, i.nodup, ?_, ?_, ?_, ?_, i.live, i.zero,
    i.pos, i.apart, i.ok⟩
  · intro x t'
    rw [i.out x t']
    dsimp only
    by_cases ht : t' = t
    · subst ht; rw [upd_self]
      constructor
      · rintro ⟨g, n', k', h'⟩
        rcases h with ⟨n, k, h⟩ | h
        · rw [h] at h'; cases h'; exact absurd rfl g
        · rw [h] at h'; cases h'
      · rintro ⟨_, _, _, h⟩; cases h
    · rw [upd_other _ _ _ _ ht]
  · intro t' n' k' x h h0
    dsimp only at h
    by_cases ht : t' = t
    · subst ht; rw [upd_self] at h; cases h
    · rw [upd_other _ _ _ _ ht] at h; exact i.outRoom t' n' k' x h h0
  · intro x t'
    rw [i.going x t']
    dsimp only
    by_cases ht : t' = t
    · subst ht; rw [upd_self]
      constructor
      · rintro ⟨g, h'⟩
        rcases h with ⟨n, k, h⟩ | h
        · rw [h] at h'; cases h'
        · rw [h] at h'; cases h'; exact absurd rfl g
      · rintro ⟨_, h⟩; cases h
    · rw [upd_other _ _ _ _ ht]
  · intro t' n' k' b' h
    dsimp only at h
    by_cases ht : t' = t
    · subst ht; rw [upd_self] at h; cases h
    · rw [upd_other _ _ _ _ ht] at h; exact i.asked t' n' k' b' h

/-- What the application is given is not in what it owns. -/
theorem Inv.got_own {rz role s} (i : Inv rz role s) (hz : 0 < rz) {t n k r} (h : s.pend t = .got n k r) (h0 : r ≠ 0) :
    s.own (r + rz) = none := by
  cases hh : s.own (r + rz) with
  | none => rfl
  | some b =>
    exfalso
    obtain ⟨_, u, g1, g2⟩ := i.outRoom t n k r h h0
    obtain ⟨v, _, g3, _, _, g4⟩ := i.block hh
    have hne : b.real ≠ r := by
      intro he
      have x := i.app _ b hh
      have y := (i.out r t).mpr ⟨h0, n, k, h⟩
      rw [he, y] at x
      cases x
    have hp := i.pos _ _ g3
    have hd := i.apart _ _ _ _ g1 g3 (Ne.symm hne)
    rcases g4 with ⟨_, g4, _⟩ | ⟨_, g4, _⟩
    · omega
    · omega

theorem inv_post {rz role s} (i : Inv rz role s) (hz : 0 < rz) {t : Nat} (he : enabled rz s (.post t)) :
    ∃ role', Inv rz role' (step rz s (.post t)).1 := by
  obtain ⟨n, k, r, hp⟩ := he
  by_cases hr0 : r = 0
  · subst hr0
    have hst : (step rz s (.post t)).1 = { s with pend := upd s.pend t .idle } := by
      unfold step
      dsimp only
      rw [hp]
      dsimp only
      unfold allocPost
      rw [if_pos rfl]
      rfl
    rw [hst]
    exact ⟨role, inv_idle i (Or.inl ⟨n, k, hp⟩)⟩
  · have hst : (step rz s (.post t)).1 =
        { s with
          tab := upd s.tab (r + rz) (some (newEntry rz n k r))
          own := upd s.own (r + rz) (some ⟨n, k, r, false⟩)
          pend := upd s.pend t .idle } := by
      unfold step
      dsimp only
      rw [hp]
      dsimp only
      unfold allocPost
      rw [if_neg hr0]
      dsimp only
      rw [if_neg (by omega)]
    rw [hst]
    have ho := i.got_own hz hp hr0
    obtain ⟨hk, u, hu, hroom⟩ := i.outRoom t n k r hp hr0
    have hout := (i.out r t).mpr ⟨hr0, n, k, hp⟩
    have ne : ∀ x b, s.own x = some b → b.real ≠ r := by
      intro x b hx hh
      have := i.app x b hx
      rw [hh, hout] at this; cases this
    refine ⟨upd role r (.app (r + rz)), ?_, ?_, ?_, ?_, ?_, ?_, i.nodup, ?_, ?_, ?_, ?_, ?_, i.zero, i.pos, i.apart, i.ok⟩
    · intro x hx
      dsimp only at hx ⊢
      by_cases h : x = r + rz
      · subst h; rw [upd_self] at hx; cases hx
      · rw [upd_other _ _ _ _ h] at hx ⊢; exact i.tab_none x hx
    · intro x b hx
      dsimp only at hx ⊢
      by_cases h : x = r + rz
      · subst h; rw [upd_self] at hx; cases hx
        refine ⟨u, _, hu, upd_self _ _ _, Or.inl ?_⟩
        rfl
      · rw [upd_other _ _ _ _ h] at hx ⊢; exact i.tab_some x b hx
    · intro x b v hx hv
      dsimp only at hx hv
      by_cases h : x = r + rz
      · subst h; rw [upd_self] at hx; cases hx
        dsimp only at hv
        rw [hu] at hv; cases hv
        refine Or.inr ⟨rfl, rfl, ?_, hk⟩
        show r + rz + n + rz ≤ r + u
        omega
      · rw [upd_other _ _ _ _ h] at hx; exact i.room x b v hx hv
    · intro x b hx
      dsimp only at hx
      by_cases h : x = r + rz
      · subst h; rw [upd_self] at hx; cases hx; exact upd_self _ _ _
      · rw [upd_other _ _ _ _ h] at hx
        rw [upd_other _ _ _ _ (ne x b hx)]
        exact i.app x b hx
    · intro x p hx
      dsimp only
      by_cases h : x = r
      · subst h; rw [upd_self] at hx; cases hx
        exact ⟨_, upd_self _ _ _, rfl⟩
      · rw [upd_other _ _ _ _ h] at hx
        obtain ⟨b, g1, g2⟩ := i.app' x p hx
        refine ⟨b, ?_, g2⟩
        rw [upd_other _ _ _ _ (by intro hh; rw [hh, ho] at g1; cases g1)]
        exact g1
    · intro x
      rw [i.held x]
      by_cases h : x = r
      · subst h; rw [upd_self, hout]
        constructor <;> intro h <;> cases h
      · rw [upd_other _ _ _ _ h]
    · intro x t'
      dsimp only
      by_cases h : x = r
      · subst h
        rw [upd_self]
        constructor
        · intro h; cases h
        · rintro ⟨g, n', k', h⟩
          by_cases ht : t' = t
          · subst ht; rw [upd_self] at h; cases h
          · rw [upd_other _ _ _ _ ht] at h
            have := (i.out x t').mpr ⟨g, n', k', h⟩
            rw [hout] at this
            cases this
            exact absurd rfl ht
      · rw [upd_other _ _ _ _ h, i.out x t']
        by_cases ht : t' = t
        · subst ht; rw [upd_self, hp]
          constructor
          · rintro ⟨_, _, _, h'⟩; cases h'; exact absurd rfl h
          · rintro ⟨_, _, _, h'⟩; cases h'
        · rw [upd_other _ _ _ _ ht]
    · intro t' n' k' x h h0
      dsimp only at h
      by_cases ht : t' = t
      · subst ht; rw [upd_self] at h; cases h
      · rw [upd_other _ _ _ _ ht] at h; exact i.outRoom t' n' k' x h h0
    · intro x t'
      dsimp only
      by_cases h : x = r
      · subst h
        rw [upd_self]
        constructor
        · intro h; cases h
        · rintro ⟨g, h⟩
          by_cases ht : t' = t
          · subst ht; rw [upd_self] at h; cases h
          · rw [upd_other _ _ _ _ ht] at h
            have := (i.going x t').mpr ⟨g, h⟩; rw [hout] at this; cases this
      · rw [upd_other _ _ _ _ h, i.going x t']
        by_cases ht : t' = t
        · subst ht; rw [upd_self, hp]
          constructor <;> rintro ⟨_, h⟩ <;> cases h
        · rw [upd_other _ _ _ _ ht]
    · intro t' n' k' b' h
      dsimp only at h
      by_cases ht : t' = t
      · subst ht; rw [upd_self] at h; cases h
      · rw [upd_other _ _ _ _ ht] at h; exact i.asked t' n' k' b' h
    · intro x
      by_cases h : x = r
      · subst h; rw [upd_self]
        constructor
        · intro h; cases h
        · intro h; dsimp only at h; rw [hu] at h; cases h
      · rw [upd_other _ _ _ _ h]; exact i.live x

theorem inv_underFree {rz role s} (i : Inv rz role s) {t : Nat} (he : enabled rz s (.underFree t)) :
    ∃ role', Inv rz role' (step rz s (.underFree t)).1 := by
  obtain ⟨a, hp⟩ := he
  have hst : (step rz s (.underFree t)).1 = { heapFree a s with pend := upd s.pend t .idle } := by
    unfold step
    dsimp only
    rw [hp]
  rw [hst]
  by_cases ha : a = 0
  · subst ha
    have : heapFree 0 s = s := by unfold heapFree; rw [if_pos rfl]
    rw [this]
    exact ⟨role, inv_idle i (Or.inr hp)⟩
  · have hg := (i.going a t).mpr ⟨ha, hp⟩
    have hl : s.heap a ≠ none := by
      intro h; have := (i.live a).mpr h; rw [hg] at this; cases this
    have hf : heapFree a s = { s with heap := upd s.heap a none } := by
      unfold heapFree
      rw [if_neg ha]
      cases h : s.heap a with
      | none => exact absurd h hl
      | some u => rfl
    rw [hf]
    have ne : ∀ x, role x ≠ .going t → x ≠ a := by
      intro x h hh; rw [hh] at h; exact h hg
    have neo : ∀ x b, s.own x = some b → b.real ≠ a := by
      intro x b hx
      apply ne
      rw [i.app x b hx]
      intro h; cases h
    refine ⟨upd role a .none, i.tab_none, ?_, ?_, ?_, ?_, ?_, i.nodup, ?_, ?_, ?_, ?_, ?_, ?_, ?_, ?_, i.ok⟩
    · intro x b hx
      obtain ⟨v, e, g1, g2, g3⟩ := i.tab_some x b hx
      exact ⟨v, e, (upd_other _ _ _ _ (neo x b hx)).trans g1, g2, g3⟩
    · intro x b v hx hv
      dsimp only at hv
      rw [upd_other _ _ _ _ (neo x b hx)] at hv
      exact i.room x b v hx hv
    · intro x b hx
      rw [upd_other _ _ _ _ (neo x b hx)]
      exact i.app x b hx
    · intro x p hx
      by_cases h : x = a
      · subst h; rw [upd_self] at hx; cases hx
      · rw [upd_other _ _ _ _ h] at hx; exact i.app' x p hx
    · intro x
      rw [i.held x]
      by_cases h : x = a
      · subst h; rw [upd_self, hg]
        constructor <;> intro h <;> cases h
      · rw [upd_other _ _ _ _ h]
    · intro x t'
      dsimp only
      by_cases h : x = a
      · subst h
        rw [upd_self]
        constructor
        · intro h; cases h
        · rintro ⟨g, n', k', h⟩
          by_cases ht : t' = t
          · subst ht; rw [upd_self] at h; cases h
          · rw [upd_other _ _ _ _ ht] at h
            have := (i.out x t').mpr ⟨g, n', k', h⟩; rw [hg] at this; cases this
      · rw [upd_other _ _ _ _ h, i.out x t']
        by_cases ht : t' = t
        · subst ht; rw [upd_self, hp]
          constructor <;> rintro ⟨_, _, _, h'⟩ <;> cases h'
        · rw [upd_other _ _ _ _ ht]
    · intro t' n' k' x h h0
      dsimp only at h ⊢
      by_cases ht : t' = t
      · subst ht; rw [upd_self] at h; cases h
      · rw [upd_other _ _ _ _ ht] at h
        obtain ⟨g0, v, g1, g2⟩ := i.outRoom t' n' k' x h h0
        refine ⟨g0, v, ?_, g2⟩
        rw [upd_other _ _ _ _ ?_]
        · exact g1
        · apply ne
          rw [(i.out x t').mpr ⟨h0, n', k', h⟩]
          intro h; cases h
    · intro x t'
      dsimp only
      by_cases h : x = a
      · subst h
        rw [upd_self]
        constructor
        · intro h; cases h
        · rintro ⟨g, h⟩
          by_cases ht : t' = t
          · subst ht; rw [upd_self] at h; cases h
          · rw [upd_other _ _ _ _ ht] at h
            have := (i.going x t').mpr ⟨g, h⟩
            rw [hg] at this; cases this
            exact absurd rfl ht
      · rw [upd_other _ _ _ _ h, i.going x t']
        by_cases ht : t' = t
        · subst ht; rw [upd_self, hp]
          constructor
          · rintro ⟨_, h'⟩; cases h'; exact absurd rfl h
          · rintro ⟨_, h'⟩; cases h'
        · rw [upd_other _ _ _ _ ht]
    · intro t' n' k' b' h
      dsimp only at h
      by_cases ht : t' = t
      · subst ht; rw [upd_self] at h; cases h
      · rw [upd_other _ _ _ _ ht] at h; exact i.asked t' n' k' b' h
    · intro x
      dsimp only
      by_cases h : x = a
      · subst h; rw [upd_self, upd_self]; exact ⟨fun _ => rfl, fun _ => rfl⟩
      · rw [upd_other _ _ _ _ h, upd_other _ _ _ _ h]; exact i.live x
    · exact (upd_other _ _ _ _ (Ne.symm ha)).trans i.zero
    · intro x v hv
      dsimp only at hv
      by_cases h : x = a
      · subst h; rw [upd_self] at hv; cases hv
      · rw [upd_other _ _ _ _ h] at hv; exact i.pos x v hv
    · intro x v x' v' hv hv' hne
      dsimp only at hv hv'
      have h1 : x ≠ a := by intro h; subst h; rw [upd_self] at hv; cases hv
      have h2 : x' ≠ a := by intro h; subst h; rw [upd_self] at hv'; cases hv'
      rw [upd_other _ _ _ _ h1] at hv
      rw [upd_other _ _ _ _ h2] at hv'
      exact i.apart x v x' v' hv hv' hne

/-- The entries that a free of `p` leaves to the others. -/
theorem Inv.near {rz role s} (i : Inv rz role s) {p : Nat} {T : Table} (hn : Near p s.tab T) {x : Nat} (hx : x ≠ p)
    (hk : ∀ c, s.own x = some c → (x = p - 4 ∨ x = p + 4) → c.kind = .unknown) :
    (s.own x = none → T x = none) ∧
    (∀ b, s.own x = some b → ∃ u e, s.heap b.real = some u ∧ T x = some e ∧ Same (entryOf rz u x b) e) := by
  constructor
  · intro h
    have ht := i.tab_none x h
    rcases hn x hx with g | ⟨_, e, g, _⟩
    · rw [g, ht]
    · rw [ht] at g; cases g
  · intro b hb
    obtain ⟨u, e, g1, g2, g3⟩ := i.tab_some x b hb
    rcases hn x hx with g | ⟨hq, e', g, g'⟩
    · exact ⟨u, e, g1, g.trans g2, g3⟩
    · rw [g2] at g; cases g
      refine ⟨u, _, g1, g', Or.inr ?_⟩
      have hbk := hk b hb hq
      obtain ⟨e2, f1, f2⟩ := i.facts hb
      rw [g2] at f1; cases f1
      rcases g3 with g3 | ⟨g3, g4⟩
      · rw [← g3]; exact ⟨f2.kind.trans hbk, rfl⟩
      · rw [g4]; exact ⟨g3, rfl⟩

theorem inv_free_null {rz role s} (i : Inv rz role s) (hr : 8 ≤ rz) {t : Nat} {how : Kind} {inner : Bool} {ch : Nat}
    (he : enabled rz s (.free t 0 how inner ch)) : ∃ role', Inv rz role' (step rz s (.free t 0 how inner ch)).1 := by
  obtain ⟨hp, _, hi, _⟩ := he
  obtain ⟨f1, f2, f3⟩ := i.free_none hr i.own_zero how inner hi
  have hst : (step rz s (.free t 0 how inner ch)).1 =
      { s with
        tab := (freePre rz 0 how inner s.tab).tab
        pend := upd s.pend t (.freeing 0) } := by
    unfold step
    dsimp only
    rw [f1]
  rw [hst]
  have hnear := near_free rz 0 how inner s.tab
  have hk : ∀ x c, s.own x = some c → (x = 0 - 4 ∨ x = 0 + 4) → c.kind = .unknown := by
    intro x c hc hx
    have h0 := i.nonzero hc
    obtain ⟨u, _, _, _, _, g⟩ := i.block hc
    rcases g with ⟨_, _, _, g⟩ | ⟨_, g, _, _⟩
    · exact g
    · omega
  refine ⟨role, ?_, ?_, i.room, i.app, i.app', i.held, i.nodup, ?_, ?_, ?_, ?_, i.live, i.zero, i.pos, i.apart, i.ok⟩
  · intro x hx
    by_cases h : x = 0
    · subst h; exact f3
    · exact (i.near hnear h (hk x)).1 hx
  · intro x b hx
    exact (i.near hnear (i.nonzero hx) (hk x)).2 b hx
  · intro x t'
    rw [i.out x t']
    dsimp only
    by_cases ht : t' = t
    · subst ht; rw [upd_self, hp]
      constructor <;> rintro ⟨_, _, _, h⟩ <;> cases h
    · rw [upd_other _ _ _ _ ht]
  · intro t' n' k' x h h0
    dsimp only at h
    by_cases ht : t' = t
    · subst ht; rw [upd_self] at h; cases h
    · rw [upd_other _ _ _ _ ht] at h; exact i.outRoom t' n' k' x h h0
  · intro x t'
    rw [i.going x t']
    dsimp only
    by_cases ht : t' = t
    · subst ht; rw [upd_self, hp]
      constructor
      · rintro ⟨_, h⟩; cases h
      · rintro ⟨g, h⟩; cases h; exact absurd rfl g
    · rw [upd_other _ _ _ _ ht]
  · intro t' n' k' b' h
    dsimp only at h
    by_cases ht : t' = t
    · subst ht; rw [upd_self] at h; cases h
    · rw [upd_other _ _ _ _ ht] at h; exact i.asked t' n' k' b' h

theorem inv_free {rz role s} (i : Inv rz role s) (hr : 8 ≤ rz) {t p : Nat} {b : Blk} (hb : s.own p = some b) {how : Kind}
    {inner : Bool} {ch : Nat} (he : enabled rz s (.free t p how inner ch)) :
    ∃ role', Inv rz role' (step rz s (.free t p how inner ch)).1 := by
  obtain ⟨hp, _, hi, hch⟩ := he
  obtain ⟨f1, f2, f3⟩ := i.free_own hr hb how inner hi
  have hst : (step rz s (.free t p how inner ch)).1 =
      { s with
        tab := (freePre rz p how inner s.tab).tab
        own := upd s.own p none
        held := (b.real :: s.held).erase ch
        pend := upd s.pend t (.freeing ch) } := by
    unfold step
    dsimp only
    rw [f1]
  rw [hst]
  have hnear := near_free rz p how inner s.tab
  have hk : ∀ x c, s.own x = some c → (x = p - 4 ∨ x = p + 4) → c.kind = .unknown := by
    intro x c hc hx
    apply Decidable.byContradiction
    intro hk
    have := i.nonzero hc
    exact i.far hr hb hc hk (by omega)
  have hap := i.app p b hb
  have hbr : b.real ∉ s.held := by
    intro h; have := (i.held b.real).mp h; rw [hap] at this; cases this
  have hnd : (b.real :: s.held).Nodup := List.nodup_cons.mpr ⟨hbr, i.nodup⟩
  have r0 : role 0 = .none := (i.live 0).mpr i.zero
  have hbr0 : b.real ≠ 0 := by intro h; rw [h, r0] at hap; cases hap
  have hmem : ch = 0 ∨ ch ∈ b.real :: s.held := by
    rcases hch with h | h | h
    · exact Or.inl h
    · rw [f1] at h; cases h; exact Or.inr List.mem_cons_self
    · exact Or.inr (List.mem_cons_of_mem _ h)
  have hrole : ∀ x, x ∈ b.real :: s.held → role x = .app p ∨ role x = .held := by
    intro x hx
    rcases List.mem_cons.mp hx with h | h
    · rw [h]; exact Or.inl hap
    · exact Or.inr ((i.held x).mp h)
  -- the new roles
  let R : Nat → Role := fun x => if x = ch ∧ ch ≠ 0 then .going t else if x = b.real then .held else role x
  have R1 : ∀ x, x = ch → ch ≠ 0 → R x = .going t := fun x h1 h2 => if_pos ⟨h1, h2⟩
  have R2 : ∀ x, ¬ (x = ch ∧ ch ≠ 0) → x = b.real → R x = .held := fun x h1 h2 => (if_neg h1).trans (if_pos h2)
  have R3 : ∀ x, ¬ (x = ch ∧ ch ≠ 0) → x ≠ b.real → R x = role x := fun x h1 h2 => (if_neg h1).trans (if_neg h2)
  have other : ∀ x, role x ≠ .app p → role x ≠ .held → R x = role x := by
    intro x h1 h2
    apply R3
    · rintro ⟨g1, g2⟩
      rw [g1] at h1 h2
      rcases hrole ch (hmem.resolve_left g2) with g | g
      · exact h1 g
      · exact h2 g
    · intro g; rw [g] at h1; exact h1 hap
  have Rapp : ∀ x q, R x = .app q ↔ role x = .app q ∧ x ≠ b.real := by
    intro x q
    by_cases h1 : x = ch ∧ ch ≠ 0
    · rw [R1 x h1.1 h1.2]
      constructor
      · intro h; cases h
      · rintro ⟨g1, g2⟩
        have hm := hmem.resolve_left h1.2
        rw [← h1.1] at hm
        rcases List.mem_cons.mp hm with h | h
        · exact absurd h g2
        · rw [(i.held x).mp h] at g1; cases g1
    · by_cases h2 : x = b.real
      · rw [R2 x h1 h2]
        constructor
        · intro h; cases h
        · rintro ⟨_, g⟩; exact absurd h2 g
      · rw [R3 x h1 h2]
        exact ⟨fun h => ⟨h, h2⟩, fun h => h.1⟩
  have ownne : ∀ x c, s.own x = some c → x ≠ p → c.real ≠ b.real := by
    intro x c hc hx hh
    have h1 := i.app x c hc
    rw [hh, hap] at h1
    injection h1 with h1
    exact hx h1.symm
  refine ⟨R, ?_, ?_, ?_, ?_, ?_, ?_, ?_, ?_, ?_, ?_, ?_, ?_, i.zero, i.pos, i.apart, i.ok⟩
  · intro x hx
    dsimp only at hx ⊢
    by_cases h : x = p
    · subst h; exact f3
    · rw [upd_other _ _ _ _ h] at hx
      exact (i.near hnear h (hk x)).1 hx
  · intro x c hx
    dsimp only at hx ⊢
    by_cases h : x = p
    · subst h; rw [upd_self] at hx; cases hx
    · rw [upd_other _ _ _ _ h] at hx
      exact (i.near hnear h (hk x)).2 c hx
  · intro x c v hx hv
    dsimp only at hx hv
    by_cases h : x = p
    · subst h; rw [upd_self] at hx; cases hx
    · rw [upd_other _ _ _ _ h] at hx
      exact i.room x c v hx hv
  · intro x c hx
    dsimp only at hx
    by_cases h : x = p
    · subst h; rw [upd_self] at hx; cases hx
    · rw [upd_other _ _ _ _ h] at hx
      exact (Rapp _ _).mpr ⟨i.app x c hx, ownne x c hx h⟩
  · intro r q hrq
    obtain ⟨g1, g2⟩ := (Rapp r q).mp hrq
    obtain ⟨c, h1, h2⟩ := i.app' r q g1
    refine ⟨c, ?_, h2⟩
    dsimp only
    rw [upd_other _ _ _ _ ?_]
    · exact h1
    · intro hh
      rw [hh, hb] at h1
      cases h1
      exact g2 h2.symm
  · intro x
    dsimp only
    rw [hnd.mem_erase_iff]
    by_cases h1 : x = ch ∧ ch ≠ 0
    · rw [R1 x h1.1 h1.2]
      constructor
      · rintro ⟨g, _⟩; exact absurd h1.1 g
      · intro h; cases h
    · by_cases h2 : x = b.real
      · rw [R2 x h1 h2]
        constructor
        · intro _; rfl
        · intro _
          refine ⟨?_, by rw [h2]; exact List.mem_cons_self⟩
          intro g
          apply h1
          refine ⟨g, ?_⟩
          rw [← g, h2]; exact hbr0
      · rw [R3 x h1 h2, ← i.held x, List.mem_cons]
        constructor
        · rintro ⟨_, g | g⟩
          · exact absurd g h2
          · exact g
        · intro g
          refine ⟨?_, Or.inr g⟩
          intro hh
          apply h1
          refine ⟨hh, ?_⟩
          intro h0
          rw [hh, h0] at g
          have := (i.held 0).mp g
          rw [r0] at this; cases this
  · exact hnd.erase ch
  · intro x t'
    dsimp only
    have : R x = .out t' ↔ role x = .out t' := by
      constructor
      · intro h
        by_cases h1 : x = ch ∧ ch ≠ 0
        · rw [R1 x h1.1 h1.2] at h; cases h
        · by_cases h2 : x = b.real
          · rw [R2 x h1 h2] at h; cases h
          · rw [R3 x h1 h2] at h; exact h
      · intro h
        rw [other x (by rw [h]; intro h; cases h) (by rw [h]; intro h; cases h)]
        exact h
    rw [this, i.out x t']
    by_cases ht : t' = t
    · subst ht; rw [upd_self, hp]
      constructor <;> rintro ⟨_, _, _, h⟩ <;> cases h
    · rw [upd_other _ _ _ _ ht]
  · intro t' n' k' x h h0
    dsimp only at h
    by_cases ht : t' = t
    · subst ht; rw [upd_self] at h; cases h
    · rw [upd_other _ _ _ _ ht] at h; exact i.outRoom t' n' k' x h h0
  · intro x t'
    dsimp only
    by_cases ht : t' = t
    · subst ht
      rw [upd_self]
      constructor
      · intro h
        by_cases h1 : x = ch ∧ ch ≠ 0
        · exact ⟨h1.1 ▸ h1.2, by rw [h1.1]⟩
        · by_cases h2 : x = b.real
          · rw [R2 x h1 h2] at h; cases h
          · rw [R3 x h1 h2] at h
            have := (i.going x t').mp h
            rw [hp] at this; cases this.2
      · rintro ⟨g1, g2⟩
        injection g2 with g2
        exact R1 x g2.symm (by rw [g2]; exact g1)
    · rw [upd_other _ _ _ _ ht, ← i.going x t']
      constructor
      · intro h
        by_cases h1 : x = ch ∧ ch ≠ 0
        · rw [R1 x h1.1 h1.2] at h; cases h; exact absurd rfl ht
        · by_cases h2 : x = b.real
          · rw [R2 x h1 h2] at h; cases h
          · rw [R3 x h1 h2] at h; exact h
      · intro h
        rw [other x (by rw [h]; intro h; cases h) (by rw [h]; intro h; cases h)]
        exact h
  · intro t' n' k' b' h
    dsimp only at h
    by_cases ht : t' = t
    · subst ht; rw [upd_self] at h; cases h
    · rw [upd_other _ _ _ _ ht] at h; exact i.asked t' n' k' b' h
  · intro x
    rw [← i.live x]
    constructor
    · intro h
      by_cases h1 : x = ch ∧ ch ≠ 0
      · rw [R1 x h1.1 h1.2] at h; cases h
      · by_cases h2 : x = b.real
        · rw [R2 x h1 h2] at h; cases h
        · rw [R3 x h1 h2] at h; exact h
    · intro h
      rw [other x (by rw [h]; intro h; cases h) (by rw [h]; intro h; cases h)]
      exact h

theorem inv_step {rz role s} (i : Inv rz role s) (h8 : 8 ≤ rz) (hr : rz ≤ 0x10000000) {e : Ev} (he : enabled rz s e)
    (hg : Good s e) : ∃ role', Inv rz role' (step rz s e).1 := by
  cases e with
  | attach p size u => exact ⟨_, inv_attach i he⟩
  | malloc t n k => exact ⟨role, inv_ask i he.1 he.2.2 (grow_ok rz n hr he.2.1)⟩
  | calloc t n m k => exact ⟨role, inv_ask i he.1 he.2.2.2 (calloc_ok rz n m hr he.2.1 he.2.2.1)⟩
  | under t r u => exact inv_under i he
  | post t => exact inv_post i (by omega) he
  | free t p how inner ch =>
    rcases hg with h | h
    · subst h; exact inv_free_null i h8 he
    · cases hb : s.own p with
      | none => exact absurd hb h
      | some b => exact inv_free i h8 hb he
  | underFree t => exact inv_underFree i he

theorem inv_run {rz es s rs} (h : Run rz es s rs) (h8 : 8 ≤ rz) (hr : rz ≤ 0x10000000) : ∃ role, Inv rz role s := by
  induction h with
  | nil => exact ⟨_, inv_init rz⟩
  | snoc e _ he hg ih => obtain ⟨role, i⟩ := ih; exact inv_step i h8 hr he hg

end Verif.Wrap
