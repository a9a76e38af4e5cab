import Verif.Umbra32Put
/-!
# The range operations of the 32-bit shadow table
-/
namespace Verif.Umbra32

/-- Index of the first shadow byte of application address `a`. -/
def nom (c : Cfg) (a : Nat) : Nat := a * c.m / c.g

/-- Shadow in which the `n` bytes from index `lo` are present and hold `f 0`, `f 1`, ... -/
def upd (sh : Sh) (lo n : Nat) (f : Nat → UInt8) : Sh :=
  fun t => if lo ≤ t ∧ t < lo + n then some (f (t - lo)) else sh t

/-- How many of the `n` bytes from index `lo` on are present before the first one that is not. -/
def run (sh : Sh) (lo : Nat) : Nat → Nat
  | 0 => 0
  | n + 1 => if (sh lo).isSome then run sh (lo + 1) n + 1 else 0

/-- A range the operations can handle: granule-aligned, not empty, inside the address space, and not
ending exactly one byte into a block. -/
structure Ok (c : Cfg) (a n : Nat) : Prop where
  ga : c.g ∣ a
  gn : c.g ∣ n
  pos : 0 < n
  le : a + n ≤ W
  last : (a + n - 1) % B ≠ 0

theorem W_eq : W = 4294967296 := by unfold W; rfl
theorem B_eq : B = 65536 := by unfold B; rfl

theorem piecesGo_eq {a e : Nat} (he : e < W) (f : Nat) : ∀ blk, piecesGo a e f blk =
    Umbra.piecesGo B a e f blk := by
  have hW := W_eq
  have hT : Umbra.top = 18446744073709551616 := by unfold Umbra.top; rfl
  induction f with
  | zero => intro blk; rfl
  | succ f ih =>
    intro blk
    rw [piecesGo, Umbra.piecesGo]
    split
    · dsimp only
      congr 1
      by_cases h1 : blk + (B - 1) + 1 ≥ Umbra.top
      · rw [if_pos h1, if_pos (by omega)]; exact ih _
      · rw [if_neg h1]
        by_cases h2 : blk + (B - 1) + 1 ≥ W
        · rw [if_pos h2, ih]
          cases f with
          | zero => rfl
          | succ f => rw [Umbra.piecesGo, Umbra.piecesGo, if_neg (by omega), if_neg (by omega)]
        · rw [if_neg h2]; exact ih _
    · rfl

theorem pieces_eq {a n : Nat} (hn : 0 < n) (h : a + n ≤ W) : pieces a n = Umbra.pieces B a n := by
  rw [pieces, Umbra.pieces, piecesGo_eq (by omega)]

theorem W_top {x : Nat} (h : x ≤ W) : x ≤ Umbra.top := by
  have hW := W_eq
  have hT : Umbra.top = 18446744073709551616 := by unfold Umbra.top; rfl
  omega

theorem Ok.tiles {c : Cfg} {a n : Nat} (h : Ok c a n) :
    Umbra.Tiles B (pieces a n) a (a + n) := by
  have hB := B_eq
  rw [pieces_eq h.pos h.le]
  have := Umbra.pieces_tiles (B := B) (a := a) (by omega) h.pos (W_top h.le)
  rwa [if_neg h.last] at this

theorem overflows_false {a n : Nat} (hn : 0 < n) (h : a + n ≤ W) : overflows a n = false := by
  rw [overflows, if_neg (by omega)]
  simp only [decide_eq_false_iff_not]; omega

/-- A piece of the loop: granule-aligned, not empty, inside one block. -/
structure Piece (c : Cfg) (start iter : Nat) : Prop where
  gs : c.g ∣ start
  gi : c.g ∣ iter
  pos : 0 < iter
  blk : start / B = (start + iter - 1) / B
  le : start + iter ≤ W

/-- Where the shadow of a piece lies. -/
theorem Piece.facts {c : Cfg} (hc : c.Valid) {start iter : Nat} (h : Piece c start iter) :
    nom c start = start / B * S c + scale c (start % B) ∧ scale c iter = nom c iter ∧
      scale c (start % B) + scale c iter ≤ S c ∧ 0 < scale c iter ∧
      nom c (start + iter) = nom c start + scale c iter := by
  have hB := B_eq
  have h1 := h.blk
  have hp := h.pos
  have hit : iter ≤ B := by rw [hB] at *; omega
  rw [S_eq hc, scale_small hc (Nat.le_of_lt (Nat.mod_lt _ (by omega))), scale_small hc hit]
  simp only [nom, Umbra.scale, Cfg.u]
  have gs := h.gs
  have gi := h.gi
  rw [hB] at *
  have hsc := hc.sc
  rcases hsc with ⟨e1, e2 | e2 | e2 | e2⟩ | ⟨e1, e2⟩ <;>
    rw [e2] at gs gi <;> rw [e1, e2] <;> refine ⟨?_, trivial, ?_, ?_, ?_⟩ <;> omega

/-- The pieces of a granule-aligned range. -/
theorem tile_piece {c : Cfg} (hc : c.Valid) {lo k hi : Nat} (glo : c.g ∣ lo) (ghi : c.g ∣ hi)
    (hk : 0 < k) (hb : lo / B = (lo + k - 1) / B) (he : lo + k = hi ∨ B ∣ lo + k) (hle : lo + k ≤ hi)
    (hW : hi ≤ W) : Piece c lo k ∧ c.g ∣ lo + k := by
  have hgB : c.g ∣ B := (u_valid hc).gB
  have h1 : c.g ∣ lo + k := by
    rcases he with he | he
    · exact he ▸ ghi
    · exact Nat.dvd_trans hgB he
  have h2 : c.g ∣ k := by
    have := Nat.dvd_sub h1 glo
    rwa [Nat.add_sub_cancel_left] at this
  exact ⟨⟨glo, h2, hk, hb, by omega⟩, h1⟩

/-- Whether shadow is present is the same for the whole block. -/
theorem view_none_iff {c : Cfg} {m : Map} (t : Nat) :
    view c m t = none ↔ c.onTouch = false ∧ getBlock c m (t / S c) = m.dflt := by
  rw [view]
  split
  · next h => simp [h]
  · next h => simp only [reduceCtorEq, false_iff]; exact h

theorem Piece.idx {c : Cfg} (hc : c.Valid) {start iter i : Nat} (h : Piece c start iter)
    (hi : i < scale c iter) : (nom c start + i) / S c = start / B ∧
      (nom c start + i) % S c = scale c (start % B) + i := by
  obtain ⟨h1, h2, h3, h4, -⟩ := h.facts hc
  have := blk_add hc (k := start / B) (i := scale c (start % B) + i) (by omega)
  rw [h1, Nat.add_assoc]; exact this

theorem Piece.some_iff {c : Cfg} (hc : c.Valid) {m : Map} {start iter i : Nat}
    (h : Piece c start iter) (hi : i < scale c iter) :
    (view c m (nom c start + i)).isSome = (view c m (nom c start)).isSome := by
  have h0 : 0 < scale c iter := by omega
  have e1 := (h.idx hc hi).1
  have e2 := (h.idx hc h0).1
  rw [Nat.add_zero] at e2
  rw [Bool.eq_iff_iff, ← Option.ne_none_iff_isSome, ← Option.ne_none_iff_isSome, ne_eq, ne_eq,
    view_none_iff, view_none_iff, e1, e2]

/-! ## `run` -/

theorem run_le (sh : Sh) (n : Nat) : ∀ lo, run sh lo n ≤ n := by
  induction n with
  | zero => intro lo; exact Nat.le_refl _
  | succ n ih =>
    intro lo; rw [run]; split
    · have := ih (lo + 1); omega
    · omega

theorem run_all {sh : Sh} {n : Nat} : ∀ {lo : Nat}, (∀ i, i < n → (sh (lo + i)).isSome = true) →
    run sh lo n = n := by
  induction n with
  | zero => intro lo _; rfl
  | succ n ih =>
    intro lo h
    rw [run, if_pos (show (sh lo).isSome = true from h 0 (by omega)), ih]
    intro i hi
    rw [show lo + 1 + i = lo + (i + 1) by omega]
    exact h (i + 1) (by omega)

theorem run_none {sh : Sh} {lo n : Nat} (h : sh lo = none) : run sh lo n = 0 := by
  cases n with
  | zero => rfl
  | succ n => rw [run, h]; rfl

theorem run_add {sh : Sh} (n1 n2 : Nat) : ∀ {lo : Nat}, (∀ i, i < n1 → (sh (lo + i)).isSome = true) →
    run sh lo (n1 + n2) = n1 + run sh (lo + n1) n2 := by
  induction n1 with
  | zero => intro lo _; rw [Nat.zero_add, Nat.zero_add, Nat.add_zero]
  | succ n ih =>
    intro lo h
    rw [show n + 1 + n2 = (n + n2) + 1 by omega, run,
      if_pos (show (sh lo).isSome = true from h 0 (by omega)), ih]
    · rw [show lo + 1 + n = lo + (n + 1) by omega]; omega
    · intro i hi
      rw [show lo + 1 + i = lo + (i + 1) by omega]
      exact h (i + 1) (by omega)

/-- The bytes counted by `run` are all present. -/
theorem run_isSome {sh : Sh} {n : Nat} : ∀ {lo i : Nat}, i < run sh lo n →
    (sh (lo + i)).isSome = true := by
  induction n with
  | zero => intro lo i h; exact absurd h (Nat.not_lt_zero _)
  | succ n ih =>
    intro lo i h
    rw [run] at h
    split at h
    · next hs =>
      cases i with
      | zero => exact hs
      | succ i =>
        rw [show lo + (i + 1) = lo + 1 + i by omega]
        exact ih (by omega)
    · exact absurd h (Nat.not_lt_zero _)

/-- `run` only depends on what is present. -/
theorem run_congr {sh sh' : Sh} {n : Nat} : ∀ {lo : Nat},
    (∀ i, i < n → (sh (lo + i)).isSome = (sh' (lo + i)).isSome) → run sh lo n = run sh' lo n := by
  induction n with
  | zero => intro lo _; rfl
  | succ n ih =>
    intro lo h
    have h0 := h 0 (by omega)
    rw [Nat.add_zero] at h0
    rw [run, run, h0, ih]
    intro i hi
    rw [show lo + 1 + i = lo + (i + 1) by omega]
    exact h (i + 1) (by omega)

/-! ## One piece of set and write -/

theorem putPiece_missing {c : Cfg} (hc : c.Valid) {al : Alloc} {m : Map} (hi : Inv c m)
    {start iter : Nat} (h : Piece c start iter) (f : Map → Nat → UInt8)
    (hv : view c m (nom c start) = none) :
    putPiece c al m start iter f = (m, .invalidParameter) := by
  have h0 := (h.facts hc).2.2.2.1
  have e2 := (h.idx hc h0).1
  rw [Nat.add_zero] at e2
  rw [view_none_iff, e2] at hv
  rw [putPiece, appToShadow_eq hc hi, if_pos]
  exact (isDefault_iff hc hi (hi.tbl _) (scale_off_lt hc _)).2 hv

theorem blkbase (start : Nat) : start / B * B / B = start / B := by
  have hB := B_eq
  rw [hB]; omega

theorem putPiece_spec {c : Cfg} (hc : c.Valid) {al : Alloc} (ha : al.Good c) {m : Map} (hi : Inv c m)
    {start iter : Nat} (h : Piece c start iter) (f : Map → Nat → UInt8)
    (hv : (view c m (nom c start)).isSome = true) :
    (putPiece c al m start iter f).2 = .oom ∨
    ((putPiece c al m start iter f).2 = .ok ∧ Inv c (putPiece c al m start iter f).1 ∧
      Ext c m (putPiece c al m start iter f).1 (start / B) ∧
      ∃ m1, Inv c m1 ∧ Ext c m m1 (start / B) ∧ view c m1 = view c m ∧
        view c (putPiece c al m start iter f).1 = upd (view c m) (nom c start) (nom c iter) (f m1)) := by
  obtain ⟨n1, n2, n3, n4, -⟩ := h.facts hc
  have e2 := (h.idx hc n4).1
  rw [Nat.add_zero] at e2
  have hnd : ¬ (c.onTouch = false ∧ getBlock c m (start / B) = m.dflt) := by
    rw [← e2, ← view_none_iff]
    intro hn; rw [hn] at hv; simp at hv
  have hnd' : ¬ isDefault c m (appToShadow c m start) = true := by
    rw [appToShadow_eq hc hi, isDefault_iff hc hi (hi.tbl _) (scale_off_lt hc _)]; exact hnd
  rw [putPiece, if_neg hnd']
  dsimp only
  -- the block after the possible replacement
  have key : ∀ m1, Inv c m1 → Ext c m m1 (start / B) → view c m1 = view c m →
      ¬ Shared c m1 (getBlock c m1 (start / B)) →
      ∃ m2, store m1 (appToShadow c m1 start) (scale c iter) (f m1) = some m2 ∧ Inv c m2 ∧
        Ext c m m2 (start / B) ∧
        view c m2 = upd (view c m) (nom c start) (nom c iter) (f m1) := by
    intro m1 j1 j2 j3 j4
    obtain ⟨m2, s1, s2, s3, s4, s5⟩ := store_priv hc j1 (k := start / B) (o := scale c (start % B))
      (n := scale c iter) (f := f m1) j4 n3
    refine ⟨m2, by rw [appToShadow_eq hc j1]; exact s1, s2, j2.trans s5, ?_⟩
    rw [s4, j3, ← n1, n2]
    rfl
  by_cases hs : (isSpecial c m (appToShadow c m start)).isSome = true
  · rw [if_pos hs]
    have hr := replaceBlock_spec hc ha hi (start / B * B)
    rw [blkbase] at hr
    rcases hr with hr | ⟨r1, r2, r3, r4, r5⟩
    · left
      generalize replaceBlock c al m (start / B * B) = r at *
      obtain ⟨m1, st⟩ := r
      dsimp only at hr
      subst hr
      rfl
    · right
      have hvp : view c (replaceBlock c al m (start / B * B)).1 = view c m := by
        rw [r4]
        funext t
        rw [present]
        split
        · next ht =>
          have : view c m t ≠ none := by rw [ne_eq, view_none_iff, ht]; exact hnd
          obtain ⟨x, hx⟩ := Option.ne_none_iff_exists'.1 this
          rw [hx]; rfl
        · rfl
      generalize replaceBlock c al m (start / B * B) = r at *
      obtain ⟨m1, st⟩ := r
      dsimp only at *
      subst r1
      obtain ⟨m2, k1, k2, k3, k4⟩ := key m1 r2 r5 hvp r3
      dsimp only
      rw [k1]
      exact ⟨rfl, k2, k3, m1, r2, r5, hvp, k4⟩
  · rw [if_neg hs]
    right
    dsimp only
    have hns : ¬ Shared c m (getBlock c m (start / B)) := by
      rintro (h' | ⟨p, hp, he⟩)
      · exact hnd h'
      · rw [appToShadow_eq hc hi] at hs
        simp only [Bool.not_eq_true, Option.isSome_eq_false_iff, Option.isNone_iff_eq_none] at hs
        exact isSpecial_none hc hi (hi.tbl _) (scale_off_lt hc _) hs p hp he
    obtain ⟨m2, k1, k2, k3, k4⟩ := key m hi (Ext.refl ..) rfl hns
    rw [k1]
    exact ⟨rfl, k2, k3, m, hi, Ext.refl .., rfl, k4⟩

/-! ## Set and write -/

/-- The loop of set and write over pieces: it stops at the first index without shadow. -/
theorem putLoop {c : Cfg} (hc : c.Valid) {al : Alloc} (ha : al.Good c) (d : Nat → UInt8)
    {l : List (Nat × Nat)} {lo hi : Nat} (ht : Umbra.Tiles B l lo hi) :
    c.g ∣ lo → c.g ∣ hi → hi ≤ W → ∀ (m : Map) (z : Nat), Inv c m →
    let r := loop (fun ((m, z) : Map × Nat) start iter =>
      match putPiece c al m start iter (fun _ i => d (z + i)) with
      | (m, st) => ((m, z + scale c iter), st)) l (m, z)
    let R := run (view c m) (nom c lo) (nom c hi - nom c lo)
    r.2 = .oom ∨ (Inv c r.1.1 ∧ view c r.1.1 = upd (view c m) (nom c lo) R (fun i => d (z + i)) ∧
      r.2 = (if R = nom c hi - nom c lo then .ok else .invalidParameter) ∧
      (R = nom c hi - nom c lo → r.1.2 = z + R)) := by
  induction ht with
  | nil x =>
    intro _ _ _ m z hi
    dsimp only
    right
    rw [Nat.sub_self]
    refine ⟨hi, ?_, rfl, fun _ => rfl⟩
    funext t
    rw [upd, if_neg (by simp only [run]; omega)]
    rfl
  | cons lo k hi l hk hb _ he hl ih =>
    intro glo ghi hW m z hinv
    have hle := hl.le
    obtain ⟨P, ghk⟩ := tile_piece hc glo ghi hk hb he hle hW
    obtain ⟨n1, n2, n3, n4, n5⟩ := P.facts hc
    have hmono : nom c (lo + k) ≤ nom c hi := Nat.div_le_div_right (Nat.mul_le_mul_right _ hle)
    dsimp only
    rw [loop]
    by_cases hv : view c m (nom c lo) = none
    · right
      rw [putPiece_missing hc hinv P _ hv, run_none hv]
      refine ⟨hinv, ?_, ?_, ?_⟩
      · funext t; rw [upd, if_neg (by omega)]
      · rw [if_neg (by omega)]
      · intro h; omega
    · have hv' : (view c m (nom c lo)).isSome = true := Option.ne_none_iff_isSome.1 hv
      have hall : ∀ i, i < scale c k → (view c m (nom c lo + i)).isSome = true := by
        intro i hi'; rw [P.some_iff hc hi', hv']
      have hR := run_add (scale c k) (nom c hi - nom c (lo + k)) hall
      rw [show scale c k + (nom c hi - nom c (lo + k)) = nom c hi - nom c lo by omega] at hR
      rcases putPiece_spec hc ha hinv P (fun _ i => d (z + i)) hv' with h | ⟨p1, p2, p3, m1, q1, q2, q3, q4⟩
      · left
        generalize putPiece c al m lo k (fun _ i => d (z + i)) = r at *
        obtain ⟨m1, st⟩ := r
        dsimp only at h
        subst h
        rfl
      · generalize putPiece c al m lo k (fun _ i => d (z + i)) = r at *
        obtain ⟨m2, st⟩ := r
        dsimp only at *
        subst p1
        dsimp only
        have hR2 : run (view c m2) (nom c (lo + k)) (nom c hi - nom c (lo + k)) =
            run (view c m) (nom c lo + scale c k) (nom c hi - nom c (lo + k)) := by
          rw [← n5]
          apply run_congr
          intro i _
          rw [q4, upd, if_neg (by omega)]
        rcases ih ghk ghi hW m2 (z + scale c k) p2 with h | ⟨i1, i2, i3, i4⟩
        · exact Or.inl h
        · right
          rw [hR2] at i2 i3 i4
          have hrl := run_le (view c m) (nom c hi - nom c (lo + k)) (nom c lo + scale c k)
          refine ⟨i1, ?_, ?_, ?_⟩
          · rw [i2, q4, hR]
            funext t
            simp only [upd]
            by_cases h1 : nom c (lo + k) ≤ t ∧
              t < nom c (lo + k) + run (view c m) (nom c lo + scale c k) (nom c hi - nom c (lo + k))
            · rw [if_pos h1, if_pos (by omega)]
              congr 2; omega
            · rw [if_neg h1]
              by_cases h2 : nom c lo ≤ t ∧ t < nom c lo + nom c k
              · rw [if_pos h2, if_pos (by omega)]
              · rw [if_neg h2, if_neg (by omega)]
          · rw [i3, hR]
            by_cases h1 : run (view c m) (nom c lo + scale c k) (nom c hi - nom c (lo + k)) =
              nom c hi - nom c (lo + k)
            · rw [if_pos h1, if_pos (by omega)]
            · rw [if_neg h1, if_neg (by omega)]
          · intro h1
            rw [i4 (by omega)]; omega

theorem Ok.nom_add {c : Cfg} (hc : c.Valid) {a n : Nat} (h : Ok c a n) :
    nom c (a + n) = nom c a + nom c n := by
  have gs := h.ga
  have gi := h.gn
  simp only [nom]
  have hsc := hc.sc
  rcases hsc with ⟨e1, e2 | e2 | e2 | e2⟩ | ⟨e1, e2⟩ <;>
    rw [e2] at gs gi <;> rw [e1, e2] <;> omega

/-- Set: the bytes up to the first missing one hold the value, the status says whether one was missing. -/
theorem setRange_spec {c : Cfg} (hc : c.Valid) {al : Alloc} (ha : al.Good c) {m : Map} (hi : Inv c m)
    {a n v : Nat} (h : Ok c a n) (hv : v < 256) :
    (setRange c al m a n v).2 = .oom ∨
    (Inv c (setRange c al m a n v).1.1 ∧
      view c (setRange c al m a n v).1.1 =
        upd (view c m) (nom c a) (run (view c m) (nom c a) (nom c n)) (fun _ => UInt8.ofNat v) ∧
      (setRange c al m a n v).2 =
        (if run (view c m) (nom c a) (nom c n) = nom c n then .ok else .invalidParameter) ∧
      (run (view c m) (nom c a) (nom c n) = nom c n → (setRange c al m a n v).1.2 = nom c n)) := by
  rw [setRange, if_neg (by omega), overflows_false h.pos h.le, if_neg (by simp)]
  have hn := h.nom_add hc
  have := putLoop hc ha (fun _ => UInt8.ofNat v) h.tiles h.ga (Nat.dvd_add h.ga h.gn) h.le m 0 hi
  dsimp only at this
  rw [hn, Nat.add_sub_cancel_left] at this
  rcases this with h1 | ⟨i1, i2, i3, i4⟩
  · exact Or.inl h1
  · refine Or.inr ⟨i1, i2, i3, fun h' => ?_⟩
    rw [i4 h', h', Nat.zero_add]

/-- Write: as set, with the bytes of the buffer. -/
theorem write_spec {c : Cfg} (hc : c.Valid) {al : Alloc} (ha : al.Good c) {m : Map} (hi : Inv c m)
    {a n sz : Nat} (h : Ok c a n) (hsz : scale c n ≤ sz) (d : Nat → UInt8) :
    (write c al m a n sz (fun _ => d)).2 = .oom ∨
    (Inv c (write c al m a n sz (fun _ => d)).1.1 ∧
      view c (write c al m a n sz (fun _ => d)).1.1 =
        upd (view c m) (nom c a) (run (view c m) (nom c a) (nom c n)) d ∧
      (write c al m a n sz (fun _ => d)).2 =
        (if run (view c m) (nom c a) (nom c n) = nom c n then .ok else .invalidParameter) ∧
      (run (view c m) (nom c a) (nom c n) = nom c n →
        (write c al m a n sz (fun _ => d)).1.2 = nom c n)) := by
  rw [write, if_neg (by omega), overflows_false h.pos h.le, if_neg (by simp)]
  have hn := h.nom_add hc
  have := putLoop hc ha d h.tiles h.ga (Nat.dvd_add h.ga h.gn) h.le m 0 hi
  dsimp only at this
  rw [hn, Nat.add_sub_cancel_left] at this
  simp only [Nat.zero_add] at this
  rcases this with h1 | ⟨i1, i2, i3, i4⟩
  · exact Or.inl h1
  · refine Or.inr ⟨i1, ?_, i3, fun h' => ?_⟩
    · exact i2
    · rw [i4 h', h']

end Verif.Umbra32
