import Verif.Umbra32
import Verif.UmbraRangeProps
/-!
# The invariant of the 32-bit shadow table and the effect of its primitives
-/
namespace Verif.Umbra32

/-- The scales that exist (umbra/umbra.h:92-98). -/
structure Cfg.Valid (c : Cfg) : Prop where
  sc : (c.m = 1 ∧ (c.g = 8 ∨ c.g = 4 ∨ c.g = 2 ∨ c.g = 1)) ∨ (c.m = 2 ∧ c.g = 1)
  rz : c.rz ≤ 1048576

/-- Blocks `b` and `b'` with their redzones do not meet. -/
def Apart (c : Cfg) (b b' : Nat) : Prop := b + S c + 2 * c.rz ≤ b' ∨ b' + S c + 2 * c.rz ≤ b

/-- What is assumed of the allocator: the block it returns lies with its redzones in the address space
(neither in the lowest addresses nor up to the very last one), and meets no block in use. -/
def Alloc.Good (c : Cfg) (al : Alloc) : Prop :=
  ∀ live b, al live = some b →
    S c + c.rz ≤ b ∧ b + S c + c.rz < W ∧ ∀ b' ∈ live, Apart c b b'

/-- Block `b` is used by several entries: the default block or a special block. -/
def Shared (c : Cfg) (m : Map) (b : Nat) : Prop :=
  (c.onTouch = false ∧ b = m.dflt) ∨ ∃ p ∈ m.specials, p.1 = b

/-- The invariant of the table. -/
structure Inv (c : Cfg) (m : Map) : Prop where
  disj : ∀ b ∈ m.live, ∀ b' ∈ m.live, b ≠ b' → Apart c b b'
  bound : ∀ b ∈ m.live, S c + c.rz ≤ b ∧ b + S c + c.rz < W
  tbl : ∀ k, getBlock c m k ∈ m.live
  touch0 : c.onTouch = true → m.dflt = 0
  dfl : c.onTouch = false → m.dflt ∈ m.live ∧ (∀ i, i < S c → m.mem (m.dflt + i) = c.dflt) ∧
    ∀ p ∈ m.specials, p.1 ≠ m.dflt
  spec : ∀ p ∈ m.specials, p.1 ∈ m.live ∧ p.2 < 256 ∧ ∀ i, i < S c → m.mem (p.1 + i) = UInt8.ofNat p.2
  touch : c.onTouch = true → ∃ p ∈ m.specials, p.2 = c.dflt.toNat
  own : ∀ k j, k ≠ j → getBlock c m k = getBlock c m j → Shared c m (getBlock c m k)
  perm : ∀ b ∈ m.live, ¬ Shared c m b → ∀ i, i < S c → m.perm (b + i) = .rw
  ro : ∀ b, Shared c m b → ∀ i, i < S c → m.perm (b + i) = .read

/-- The shadow byte with index `t` as a user sees it: `none` where no shadow exists.  Index `t` belongs to
application block `t / S`. -/
def view (c : Cfg) (m : Map) (t : Nat) : Option UInt8 :=
  if c.onTouch = false ∧ getBlock c m (t / S c) = m.dflt then none
  else some (m.mem (getBlock c m (t / S c) + t % S c))

/-! ## Arithmetic -/

theorem u_valid {c : Cfg} (hc : c.Valid) : c.u.Valid := by
  have h := hc.sc
  refine ⟨?_, ?_, ?_, ?_, ?_⟩ <;> simp only [Cfg.u, B] <;>
    rcases h with ⟨h1, h2 | h2 | h2 | h2⟩ | ⟨h1, h2⟩ <;> (try rw [h2]) <;> (try rw [h1]) <;> decide

/-- For values up to a block the 32-bit scaling is the plain one. -/
theorem scale_small {c : Cfg} (hc : c.Valid) {v : Nat} (hv : v ≤ B) :
    scale c v = Umbra.scale c.u v := by
  have h : v * c.m / c.g < W := by
    have h := hc.sc
    unfold B at hv; unfold W
    rcases h with ⟨h1, h2 | h2 | h2 | h2⟩ | ⟨h1, h2⟩ <;> rw [h1, h2] <;> omega
  rw [scale, Umbra.scale, Nat.mod_eq_of_lt h]; rfl

theorem S_eq {c : Cfg} (hc : c.Valid) : S c = B * c.m / c.g := by
  rw [S, scale_small hc (Nat.le_refl _)]; rfl

theorem S_bounds {c : Cfg} (hc : c.Valid) : 8192 ≤ S c ∧ S c ≤ 131072 := by
  rw [S_eq hc]
  have h := hc.sc
  unfold B
  rcases h with ⟨h1, h2 | h2 | h2 | h2⟩ | ⟨h1, h2⟩ <;> rw [h1, h2] <;> decide

theorem scale_off_lt {c : Cfg} (hc : c.Valid) (a : Nat) : scale c (a % B) < S c := by
  have hm : a % B < B := Nat.mod_lt _ (by decide +kernel)
  rw [scale_small hc (by omega), S_eq hc, Umbra.scale]
  have h := hc.sc
  simp only [Cfg.u, B] at *
  rcases h with ⟨h1, h2 | h2 | h2 | h2⟩ | ⟨h1, h2⟩ <;> rw [h1, h2] <;> omega

theorem scale_lt (c : Cfg) (v : Nat) : scale c v < W := Nat.mod_lt _ (by decide +kernel)

theorem getBlock_lt (c : Cfg) (m : Map) (k : Nat) : getBlock c m k < W := Nat.mod_lt _ (by decide +kernel)

/-- A table entry that was set is read back. -/
theorem getBlock_set (c : Cfg) (m : Map) (k b j : Nat) (hb : b < W) :
    getBlock c (setBlock c m k b) j = if j = k then b else getBlock c m j := by
  unfold getBlock setBlock
  dsimp only
  split
  · next h =>
    subst h
    have := scale_lt c (j * B % W)
    generalize scale c (j * B % W) = x at *
    unfold W at *
    omega
  · rfl

/-- Address of the shadow of `a`, without wrapping. -/
theorem appToShadow_eq {c : Cfg} (hc : c.Valid) {m : Map} (hi : Inv c m) (a : Nat) :
    appToShadow c m a = getBlock c m (a / B) + scale c (a % B) := by
  have h1 := (hi.bound _ (hi.tbl (a / B))).2
  have h2 := scale_off_lt hc a
  rw [appToShadow, Nat.mod_eq_of_lt (by omega)]

/-! ## The two block tests -/

theorem inRegion_iff {c : Cfg} (hc : c.Valid) {start x : Nat} (h1 : S c + c.rz ≤ start)
    (h2 : start + S c + c.rz < W) :
    inRegion c start x = true ↔ start ≤ x + c.rz ∧ x < start + S c + c.rz := by
  have hr := hc.rz
  have hW : W = 4294967296 := by unfold W; rfl
  have e1 : (start + (W - c.rz)) % W = start - c.rz := by
    rw [show start + (W - c.rz) = (start - c.rz) + W by omega, Nat.add_mod_right,
      Nat.mod_eq_of_lt (by omega)]
  rw [inRegion, Nat.mod_eq_of_lt h2, e1]
  simp only [Bool.and_eq_true, decide_eq_true_eq]
  omega

theorem inRegion_zero {c : Cfg} (hc : c.Valid) {x : Nat} (h1 : S c + c.rz ≤ x) :
    inRegion c 0 x = false := by
  have hr := hc.rz
  have hs := S_bounds hc
  have hW : W = 4294967296 := by unfold W; rfl
  rw [inRegion]
  have : (0 + S c + c.rz) % W = S c + c.rz := by rw [Nat.mod_eq_of_lt (by omega)]; omega
  rw [this]
  simp only [Bool.and_eq_false_iff, decide_eq_false_iff_not]
  right; omega

/-- A byte of block `b` is in the region of block `start` only if they are the same. -/
theorem inRegion_block {c : Cfg} (hc : c.Valid) {m : Map} (hi : Inv c m) {b start i : Nat}
    (hb : b ∈ m.live) (hs : start ∈ m.live) (hlt : i < S c) :
    inRegion c start (b + i) = true ↔ start = b := by
  have h1 := hi.bound _ hs
  rw [inRegion_iff hc h1.1 h1.2]
  constructor
  · intro h
    by_cases he : start = b
    · exact he
    · have := hi.disj _ hs _ hb he
      unfold Apart at this
      omega
  · rintro rfl; omega

theorem isDefault_iff {c : Cfg} (hc : c.Valid) {m : Map} (hi : Inv c m) {b i : Nat}
    (hb : b ∈ m.live) (hlt : i < S c) :
    isDefault c m (b + i) = true ↔ c.onTouch = false ∧ b = m.dflt := by
  rw [isDefault]
  cases ht : c.onTouch with
  | true =>
    rw [hi.touch0 ht, inRegion_zero hc (by have := hi.bound _ hb; omega)]
    simp
  | false =>
    rw [inRegion_block hc hi hb (hi.dfl ht).1 hlt]
    constructor
    · intro h; exact ⟨rfl, h.symm⟩
    · intro h; exact h.2.symm

theorem isSpecial_some {c : Cfg} (hc : c.Valid) {m : Map} (hi : Inv c m) {b i v : Nat}
    (hb : b ∈ m.live) (hlt : i < S c) (h : isSpecial c m (b + i) = some v) :
    (b, v) ∈ m.specials := by
  rw [isSpecial] at h
  cases hf : m.specials.find? fun p => inRegion c p.1 (b + i) with
  | none => rw [hf] at h; simp at h
  | some p =>
    rw [hf] at h
    simp only [Option.map_some, Option.some.injEq] at h
    have h1 := List.mem_of_find?_eq_some hf
    have h2 := List.find?_some hf
    have h3 := (inRegion_block hc hi hb (hi.spec _ h1).1 hlt).1 h2
    rw [← h, ← h3]
    exact h1

theorem isSpecial_none {c : Cfg} (hc : c.Valid) {m : Map} (hi : Inv c m) {b i : Nat}
    (hb : b ∈ m.live) (hlt : i < S c) (h : isSpecial c m (b + i) = none) :
    ∀ p ∈ m.specials, p.1 ≠ b := by
  intro p hp he
  rw [isSpecial] at h
  simp only [Option.map_eq_none_iff] at h
  have h2 := List.find?_eq_none.1 h p hp
  exact h2 ((inRegion_block hc hi hb (hi.spec _ hp).1 hlt).2 he)

/-! ## Memory primitives -/

theorem memput_out {mem : Nat → UInt8} {i n t : Nat} {f : Nat → UInt8} (h : t < i ∨ i + n ≤ t) :
    Umbra.memput mem i n f t = mem t := by
  rw [Umbra.memput, if_neg (by omega)]

theorem memset_out {mem : Nat → UInt8} {i n t : Nat} {v : UInt8} (h : t < i ∨ i + n ≤ t) :
    Umbra.memset mem i n v t = mem t := by
  rw [Umbra.memset, if_neg (by omega)]

theorem protect_out {f : Nat → Perm} {i n t : Nat} {p : Perm} (h : t < i ∨ i + n ≤ t) :
    protect f i n p t = f t := by
  rw [protect, if_neg (by omega)]

theorem protect_in {f : Nat → Perm} {i n t : Nat} {p : Perm} (h : i ≤ t ∧ t < i + n) :
    protect f i n p t = p := by
  rw [protect, if_pos h]

/-- What a newly allocated block looks like and what stays as it was. -/
structure Grew (c : Cfg) (m m' : Map) (b : Nat) : Prop where
  table : m'.table = m.table
  dflt : m'.dflt = m.dflt
  specials : m'.specials = m.specials
  live : m'.live = b :: m.live
  lo : S c + c.rz ≤ b
  hi : b + S c + c.rz < W
  apart : ∀ b' ∈ m.live, Apart c b b'
  mem : ∀ t, (t + c.rz < b ∨ b + S c + c.rz ≤ t) → m'.mem t = m.mem t
  perm : ∀ t, (t + c.rz < b ∨ b + S c + c.rz ≤ t) → m'.perm t = m.perm t

theorem createBlock_spec {c : Cfg} {al : Alloc} (ha : al.Good c) {m m' : Map} {b : Nat}
    (h : createBlock c al m = some (m', b)) :
    Grew c m m' b ∧ ∀ i, i < S c → m'.perm (b + i) = .rw := by
  rw [createBlock] at h
  cases hal : al m.live with
  | none => rw [hal] at h; simp at h
  | some b0 =>
    rw [hal] at h
    simp only [Option.some.injEq, Prod.mk.injEq] at h
    obtain ⟨h1, rfl⟩ := h
    obtain ⟨g1, g2, g3⟩ := ha _ _ hal
    rw [← h1, initRedzone]
    split
    · refine ⟨⟨rfl, rfl, rfl, rfl, g1, g2, g3, fun _ _ => rfl, ?_⟩, ?_⟩
      · intro t ht; dsimp only; rw [protect_out (by omega)]
      · intro i hi; dsimp only; rw [protect_in (by omega)]
    · split
      · refine ⟨⟨rfl, rfl, rfl, rfl, g1, g2, g3, fun _ _ => rfl, ?_⟩, ?_⟩
        · intro t ht; dsimp only
          rw [protect_out (by omega), protect_out (by omega), protect_out (by omega)]
        · intro i hi; dsimp only
          rw [protect_out (by omega), protect_out (by omega), protect_in (by omega)]
      · refine ⟨⟨rfl, rfl, rfl, rfl, g1, g2, g3, ?_, ?_⟩, ?_⟩
        · intro t ht; dsimp only
          rw [memset_out (by omega), memset_out (by omega)]
        · intro t ht; dsimp only; rw [protect_out (by omega)]
        · intro i hi; dsimp only; rw [protect_in (by omega)]

theorem store_spec {m m' : Map} {i n : Nat} {f : Nat → UInt8} (h : store m i n f = some m') :
    m' = { m with mem := Umbra.memput m.mem i n f } := by
  rw [store] at h
  split at h
  · simpa using h.symm
  · simp at h

theorem store_ok {m : Map} {i n : Nat} {f : Nat → UInt8} (h : ∀ t, t < n → m.perm (i + t) = .rw) :
    store m i n f = some { m with mem := Umbra.memput m.mem i n f } := by
  rw [store, if_pos h]

theorem specialHelper_spec {c : Cfg} {al : Alloc} (ha : al.Good c) {m m' : Map} {b v : Nat}
    (h : specialHelper c al m v = some (m', b)) :
    Grew c m m' b ∧ ∀ i, i < S c → m'.mem (b + i) = UInt8.ofNat v ∧ m'.perm (b + i) = .read := by
  rw [specialHelper] at h
  cases hcb : createBlock c al m with
  | none => rw [hcb] at h; simp at h
  | some r =>
    obtain ⟨m1, b1⟩ := r
    rw [hcb] at h
    simp only [Option.some.injEq, Prod.mk.injEq] at h
    obtain ⟨h1, rfl⟩ := h
    obtain ⟨g, -⟩ := createBlock_spec ha hcb
    have glo := g.lo
    rw [← h1]
    refine ⟨⟨g.table, g.dflt, g.specials, g.live, g.lo, g.hi, g.apart, ?_, ?_⟩, ?_⟩
    · intro t ht; dsimp only; rw [memset_out (by omega), g.mem _ ht]
    · intro t ht; dsimp only; rw [protect_out (by omega), g.perm _ ht]
    · intro i hi; dsimp only; rw [Umbra.memset, if_pos (by omega), protect_in (by omega)]; exact ⟨rfl, rfl⟩

/-! ## Allocation keeps the invariant -/

theorem Grew.blk {c : Cfg} {m m' : Map} {b : Nat} (g : Grew c m m' b) (k : Nat) :
    getBlock c m' k = getBlock c m k := by rw [getBlock, getBlock, g.table]

theorem Grew.mem_old {c : Cfg} {m m' : Map} {b : Nat} (g : Grew c m m' b) {b' i : Nat}
    (hb : b' ∈ m.live) (hlt : i < S c) : m'.mem (b' + i) = m.mem (b' + i) := by
  have := g.apart _ hb
  unfold Apart at this
  exact g.mem _ (by omega)

theorem Grew.perm_old {c : Cfg} {m m' : Map} {b : Nat} (g : Grew c m m' b) {b' i : Nat}
    (hb : b' ∈ m.live) (hlt : i < S c) : m'.perm (b' + i) = m.perm (b' + i) := by
  have := g.apart _ hb
  unfold Apart at this
  exact g.perm _ (by omega)

theorem Apart.symm {c : Cfg} {b b' : Nat} (h : Apart c b b') : Apart c b' b := Or.symm h

theorem Grew.notin {c : Cfg} (hc : c.Valid) {m m' : Map} {b : Nat} (g : Grew c m m' b) : b ∉ m.live := by
  intro h
  have := g.apart _ h
  have hs := S_bounds hc
  unfold Apart at this
  omega

theorem Grew.disj {c : Cfg} {m m' : Map} {b : Nat} (g : Grew c m m' b) (hi : Inv c m) :
    ∀ x ∈ m'.live, ∀ y ∈ m'.live, x ≠ y → Apart c x y := by
  rw [g.live]
  intro x hx y hy hne
  rcases List.mem_cons.1 hx with hx | hx <;> rcases List.mem_cons.1 hy with hy | hy
  · exact absurd (hx.trans hy.symm) hne
  · exact hx ▸ g.apart _ hy
  · exact hy ▸ (g.apart _ hx).symm
  · exact hi.disj _ hx _ hy hne

theorem Grew.bound {c : Cfg} {m m' : Map} {b : Nat} (g : Grew c m m' b) (hi : Inv c m) :
    ∀ x ∈ m'.live, S c + c.rz ≤ x ∧ x + S c + c.rz < W := by
  rw [g.live]
  intro x hx
  rcases List.mem_cons.1 hx with rfl | hx
  · exact ⟨g.lo, g.hi⟩
  · exact hi.bound _ hx

theorem Grew.live_sub {c : Cfg} {m m' : Map} {b x : Nat} (g : Grew c m m' b) (h : x ∈ m.live) :
    x ∈ m'.live := by rw [g.live]; exact List.mem_cons_of_mem _ h

theorem Grew.view {c : Cfg} (hc : c.Valid) {m m' : Map} {b : Nat} (g : Grew c m m' b) (hi : Inv c m) :
    view c m' = view c m := by
  funext t
  have hlt : t % S c < S c := Nat.mod_lt _ (by have := S_bounds hc; omega)
  rw [Umbra32.view, Umbra32.view, g.blk, g.dflt, g.mem_old (hi.tbl _) hlt]

/-- Creating a special block changes nothing that a user sees; the block returned is a special block with
the value asked for. -/
theorem createSpecial_spec {c : Cfg} (hc : c.Valid) {al : Alloc} (ha : al.Good c) {m m' : Map}
    {v : Nat} {ob : Option Nat} (hi : Inv c m) (hv : v < 256)
    (h : createSpecial c al m v = some (m', ob)) :
    Inv c m' ∧ view c m' = view c m ∧ (∀ k, getBlock c m' k = getBlock c m k) ∧
      m'.dflt = m.dflt ∧ (∀ b, ob = some b → (b, v) ∈ m'.specials) := by
  rw [createSpecial] at h
  cases hl : lookupSpecial m v with
  | some b =>
    rw [hl] at h
    simp only [Option.some.injEq, Prod.mk.injEq] at h
    obtain ⟨rfl, rfl⟩ := h
    refine ⟨hi, rfl, fun _ => rfl, rfl, ?_⟩
    intro b' hb'
    simp only [Option.some.injEq] at hb'
    subst hb'
    rw [lookupSpecial] at hl
    cases hf : m.specials.find? fun p => p.2 = v with
    | none => rw [hf] at hl; simp at hl
    | some p =>
      rw [hf] at hl
      simp only [Option.map_some, Option.some.injEq] at hl
      have h1 := List.mem_of_find?_eq_some hf
      have h2 := List.find?_some hf
      simp only [decide_eq_true_eq] at h2
      rw [← hl, ← h2]; exact h1
  | none =>
    rw [hl] at h
    dsimp only at h
    split at h
    · simp only [Option.some.injEq, Prod.mk.injEq] at h
      obtain ⟨rfl, rfl⟩ := h
      exact ⟨hi, rfl, fun _ => rfl, rfl, fun _ h => by simp at h⟩
    · cases hs : specialHelper c al m v with
      | none => rw [hs] at h; simp at h
      | some r =>
        obtain ⟨m1, b⟩ := r
        rw [hs] at h
        simp only [Option.some.injEq, Prod.mk.injEq] at h
        obtain ⟨rfl, rfl⟩ := h
        obtain ⟨g, gm⟩ := specialHelper_spec ha hs
        have hni := g.notin hc
        refine ⟨⟨?_, ?_, ?_, ?_, ?_, ?_, ?_, ?_, ?_, ?_⟩, ?_, g.blk, g.dflt, ?_⟩
        · exact g.disj hi
        · exact g.bound hi
        · intro k; exact (g.blk k).symm ▸ g.live_sub (hi.tbl k)
        · intro ht; exact g.dflt.trans (hi.touch0 ht)
        · intro ht
          obtain ⟨d1, d2, d3⟩ := hi.dfl ht
          refine ⟨?_, ?_, ?_⟩
          · show m1.dflt ∈ m1.live
            rw [g.dflt]; exact g.live_sub d1
          · intro i hlt
            show m1.mem (m1.dflt + i) = c.dflt
            rw [g.dflt, g.mem_old d1 hlt, d2 i hlt]
          · intro p hp
            show p.1 ≠ m1.dflt
            rw [g.dflt]
            rw [g.specials] at hp
            rcases List.mem_append.1 hp with hp | hp
            · exact d3 p hp
            · rw [List.mem_singleton] at hp
              subst hp
              intro he
              have he : b = m.dflt := he
              exact hni (he ▸ d1)
        · intro p hp
          rw [g.specials] at hp
          rcases List.mem_append.1 hp with hp | hp
          · obtain ⟨s1, s2, s3⟩ := hi.spec p hp
            exact ⟨g.live_sub s1, s2, fun i hlt => (g.mem_old s1 hlt).trans (s3 i hlt)⟩
          · rw [List.mem_singleton] at hp
            subst hp
            refine ⟨?_, hv, fun i hlt => (gm i hlt).1⟩
            show b ∈ m1.live
            rw [g.live]; exact List.mem_cons_self
        · intro ht
          obtain ⟨p, hp, he⟩ := hi.touch ht
          refine ⟨p, ?_, he⟩
          show p ∈ m1.specials ++ [(b, v)]
          rw [g.specials]; exact List.mem_append_left _ hp
        · intro k j hkj he
          have he' : getBlock c m k = getBlock c m j := (g.blk k).symm.trans (he.trans (g.blk j))
          have := hi.own k j hkj he'
          show (c.onTouch = false ∧ getBlock c m1 k = m1.dflt) ∨
            ∃ p ∈ m1.specials ++ [(b, v)], p.1 = getBlock c m1 k
          rw [g.blk, g.dflt, g.specials]
          rcases this with h | ⟨p, hp, h⟩
          · exact Or.inl h
          · exact Or.inr ⟨p, List.mem_append_left _ hp, h⟩
        · intro x hx hns i hlt
          have hx' : x ∈ b :: m.live := g.live ▸ hx
          rcases List.mem_cons.1 hx' with rfl | hx'
          · exact absurd (Or.inr ⟨(x, v), List.mem_append_right _ List.mem_cons_self, rfl⟩) hns
          · show m1.perm (x + i) = .rw
            rw [g.perm_old hx' hlt]
            refine hi.perm x hx' ?_ i hlt
            intro hsh
            apply hns
            show (c.onTouch = false ∧ x = m1.dflt) ∨ ∃ p ∈ m1.specials ++ [(b, v)], p.1 = x
            rw [g.dflt, g.specials]
            rcases hsh with h | ⟨p, hp, h⟩
            · exact Or.inl h
            · exact Or.inr ⟨p, List.mem_append_left _ hp, h⟩
        · intro x hsh i hlt
          show m1.perm (x + i) = .read
          have hsh : (c.onTouch = false ∧ x = m1.dflt) ∨ ∃ p ∈ m1.specials ++ [(b, v)], p.1 = x := hsh
          rw [g.dflt, g.specials] at hsh
          rcases hsh with h | ⟨p, hp, h⟩
          · have hl := (hi.dfl h.1).1
            rw [← h.2] at hl
            rw [g.perm_old hl hlt]
            exact hi.ro x (Or.inl h) i hlt
          · rcases List.mem_append.1 hp with hp | hp
            · have hl := (hi.spec p hp).1
              rw [h] at hl
              rw [g.perm_old hl hlt]
              exact hi.ro x (Or.inr ⟨p, hp, h⟩) i hlt
            · rw [List.mem_singleton] at hp
              subst hp
              have h : b = x := h
              rw [← h]
              exact (gm i hlt).2
        · exact g.view hc hi
        · intro b' hb'
          simp only [Option.some.injEq] at hb'
          subst hb'
          exact List.mem_append_right _ List.mem_cons_self

end Verif.Umbra32
