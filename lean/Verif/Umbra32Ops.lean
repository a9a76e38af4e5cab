import Verif.Umbra32Loop
/-!
# Create, read, clear, copy and search on the 32-bit shadow table
-/
namespace Verif.Umbra32

/-- Shadow after creating `[a, a+n)` with value `v`: the range holds `v`, and the rest of every block the
range meets is present, with the default value where it was missing. -/
def created (c : Cfg) (sh : Sh) (a n : Nat) (v : UInt8) : Sh := fun t =>
  if nom c a ≤ t ∧ t < nom c (a + n) then some v
  else if 0 < n ∧ a / B ≤ t / S c ∧ t / S c ≤ (a + n - 1) / B then some ((sh t).getD c.dflt)
  else sh t

/-! ## Create -/

theorem Piece.range {c : Cfg} (hc : c.Valid) {start iter t : Nat} (h : Piece c start iter)
    (h1 : nom c start ≤ t) (h2 : t < nom c (start + iter)) : t / S c = start / B := by
  obtain ⟨-, -, -, -, n5⟩ := h.facts hc
  have := (h.idx hc (i := t - nom c start) (by omega)).1
  rwa [show nom c start + (t - nom c start) = t by omega] at this

theorem Piece.ok {c : Cfg} {start iter : Nat} (h : Piece c start iter)
    (hne : ¬ (iter = 1 ∧ start % B = 0)) : Ok c start iter := by
  refine ⟨h.gs, h.gi, h.pos, h.le, ?_⟩
  have hb := h.blk
  have hp := h.pos
  rw [B_eq] at hb hne ⊢
  omega

/-- Setting a piece in a block that is present. -/
theorem setPiece_present {c : Cfg} (hc : c.Valid) {al : Alloc} (ha : al.Good c) {m : Map}
    (hi : Inv c m) {start iter v : Nat} (h : Piece c start iter) (hne : ¬ (iter = 1 ∧ start % B = 0))
    (hv : v < 256) (hp : ∀ t, t / S c = start / B → (view c m t).isSome = true) :
    (setRange c al m start iter v).2 = .oom ∨
    ((setRange c al m start iter v).2 = .ok ∧ Inv c (setRange c al m start iter v).1.1 ∧
      view c (setRange c al m start iter v).1.1 = created c (view c m) start iter (UInt8.ofNat v)) := by
  obtain ⟨n1, n2, n3, n4, n5⟩ := h.facts hc
  have hall : run (view c m) (nom c start) (nom c iter) = nom c iter := by
    apply run_all
    intro i hlt
    exact hp _ (h.idx hc (by omega)).1
  rcases setRange_spec hc ha hi (h.ok hne) hv with h1 | ⟨i1, i2, i3, -⟩
  · exact Or.inl h1
  · right
    refine ⟨by rw [i3, if_pos hall], i1, ?_⟩
    rw [i2, hall]
    funext t
    have hb := h.blk
    rw [upd, created]
    by_cases h1 : nom c start ≤ t ∧ t < nom c start + nom c iter
    · rw [if_pos h1, if_pos (by omega)]
    · rw [if_neg h1, if_neg (by omega)]
      split
      · next h2 =>
        obtain ⟨x, hx⟩ := Option.isSome_iff_exists.1 (hp t (by omega))
        rw [hx]; rfl
      · rfl

theorem created_present {c : Cfg} {sh : Sh} {start iter : Nat} {v : UInt8} (hp : 0 < iter)
    (hb : start / B = (start + iter - 1) / B) :
    created c (present c sh (start / B)) start iter v = created c sh start iter v := by
  funext t
  rw [created, created]
  split
  · rfl
  · split
    · next h1 =>
      rw [present, if_pos (by omega)]
      simp
    · next h1 =>
      rw [present, if_neg (by omega)]

theorem createPiece_spec {c : Cfg} (hc : c.Valid) {al : Alloc} (ha : al.Good c) {m : Map}
    (hi : Inv c m) {shared : Bool} {a e v start iter : Nat} (h : Piece c start iter)
    (hne : ¬ (iter = 1 ∧ start % B = 0)) (hv : v < 255) (hs : start = a ∨ B ∣ start)
    (he : start + iter = e + 1 ∨ B ∣ start + iter) :
    (createPiece c al shared a e v m start iter).2 = .oom ∨
    ((createPiece c al shared a e v m start iter).2 = .ok ∧
      Inv c (createPiece c al shared a e v m start iter).1 ∧
      view c (createPiece c al shared a e v m start iter).1 =
        created c (view c m) start iter (UInt8.ofNat v)) := by
  obtain ⟨n1, n2, n3, n4, n5⟩ := h.facts hc
  have hbb := h.blk
  have hS := S_bounds hc
  -- setting a present piece
  have hset : ∀ m1, Inv c m1 → (∀ t, t / S c = start / B → (view c m1 t).isSome = true) →
      created c (view c m1) start iter (UInt8.ofNat v) = created c (view c m) start iter (UInt8.ofNat v) →
      (match setRange c al m1 start iter v with | ((m, _), st) => (m, st)).2 = .oom ∨
      ((match setRange c al m1 start iter v with | ((m, _), st) => (m, st)).2 = .ok ∧
        Inv c (match setRange c al m1 start iter v with | ((m, _), st) => (m, st)).1 ∧
        view c (match setRange c al m1 start iter v with | ((m, _), st) => (m, st)).1 =
          created c (view c m) start iter (UInt8.ofNat v)) := by
    intro m1 j1 j2 j3
    have := setPiece_present hc ha j1 h hne (by omega : v < 256) j2
    rw [j3] at this
    generalize setRange c al m1 start iter v = r at *
    obtain ⟨⟨m2, z⟩, st⟩ := r
    exact this
  -- replacing and setting
  have hnorm : ∀ m1, Inv c m1 → view c m1 = view c m →
      (match replaceBlock c al m1 (start / B * B) with
        | (m, .ok) => (match setRange c al m start iter v with | ((m, _), st) => (m, st))
        | r => r).2 = .oom ∨
      ((match replaceBlock c al m1 (start / B * B) with
        | (m, .ok) => (match setRange c al m start iter v with | ((m, _), st) => (m, st))
        | r => r).2 = .ok ∧
        Inv c (match replaceBlock c al m1 (start / B * B) with
        | (m, .ok) => (match setRange c al m start iter v with | ((m, _), st) => (m, st))
        | r => r).1 ∧
        view c (match replaceBlock c al m1 (start / B * B) with
        | (m, .ok) => (match setRange c al m start iter v with | ((m, _), st) => (m, st))
        | r => r).1 = created c (view c m) start iter (UInt8.ofNat v)) := by
    intro m1 j1 j2
    have hr := replaceBlock_spec hc ha j1 (start / B * B)
    rw [blkbase] at hr
    rcases hr with hr | ⟨r1, r2, r3, r4, r5⟩
    · left
      generalize replaceBlock c al m1 (start / B * B) = r at *
      obtain ⟨m2, st⟩ := r
      dsimp only at hr
      subst hr
      rfl
    · generalize replaceBlock c al m1 (start / B * B) = r at *
      obtain ⟨m2, st⟩ := r
      dsimp only at *
      subst r1
      dsimp only
      apply hset m2 r2
      · intro t ht
        rw [r4, present, if_pos ht]; rfl
      · rw [r4, j2, created_present h.pos hbb]
  rw [createPiece]
  dsimp only
  by_cases hd : isDefault c m (appToShadow c m (start / B * B)) = true
  · rw [if_pos hd]
    have hd' : c.onTouch = false ∧ getBlock c m (start / B) = m.dflt := by
      rw [appToShadow_eq hc hi, isDefault_iff hc hi (hi.tbl _) (scale_off_lt hc _), blkbase] at hd
      exact hd
    by_cases hsh : (shared && ((decide (start / B * B ≥ a) && decide (start / B * B + (B - 1) ≤ e)) ||
        decide (c.dflt.toNat = v))) = true
    · rw [if_pos hsh]
      cases hcs : createSpecial c al m v with
      | none => exact Or.inl rfl
      | some r =>
        obtain ⟨m1, ob⟩ := r
        obtain ⟨s1, s2, s3, s4, s5⟩ := createSpecial_spec hc ha hi (by omega) hcs
        cases ob with
        | none => exact hnorm m1 s1 s2
        | some b =>
          right
          obtain ⟨t1, t2⟩ := setSpecial_spec hc s1 (k := start / B) (s5 b rfl)
          dsimp only
          rw [blkbase]
          refine ⟨by rfl, t1, ?_⟩
          rw [t2, s2]
          funext t
          rw [created]
          by_cases hin : nom c start ≤ t ∧ t < nom c (start + iter)
          · rw [if_pos hin, if_pos (h.range hc hin.1 hin.2)]
          · rw [if_neg hin]
            by_cases hk : t / S c = start / B
            · rw [if_pos hk, if_pos ⟨h.pos, by omega, by omega⟩]
              have hnone : view c m t = none := by rw [view_none_iff, hk]; exact hd'
              rw [hnone]
              simp only [Bool.and_eq_true, Bool.or_eq_true, decide_eq_true_eq] at hsh
              rcases hsh.2 with ⟨w1, w2⟩ | w
              · -- the range covers the block, so `t` is in it
                exfalso
                apply hin
                have es : start = start / B * B := by rw [B_eq] at hs w1 ⊢; omega
                have hp := h.pos
                have ei : iter = B := by rw [B_eq] at w2 hbb he es ⊢; omega
                have hdm := Nat.div_add_mod t (S c)
                have hlt : t % S c < S c := Nat.mod_lt _ (by omega)
                rw [hk, Nat.mul_comm] at hdm
                have e0 : start % B = 0 := by
                  rw [es]; exact Nat.mul_mod_left ..
                have z0 : scale c (start % B) = 0 := by
                  rw [e0, scale, Nat.zero_mul, Nat.zero_div, Nat.zero_mod]
                have z1 : scale c iter = S c := by rw [ei]; rfl
                rw [n5, n1, z0, z1]
                omega
              · simp [← w]
            · rw [if_neg hk, if_neg (by omega)]
    · rw [if_neg hsh]
      exact hnorm m hi rfl
  · rw [if_neg hd]
    apply hset m hi _ rfl
    intro t ht
    rw [← Option.ne_none_iff_isSome, ne_eq, view_none_iff, ht]
    intro hd'
    apply hd
    rw [appToShadow_eq hc hi, isDefault_iff hc hi (hi.tbl _) (scale_off_lt hc _), blkbase]
    exact hd'

theorem created_nil {c : Cfg} {sh : Sh} {a : Nat} {v : UInt8} : created c sh a 0 v = sh := by
  funext t
  rw [created, Nat.add_zero, if_neg (by omega), if_neg (by omega)]

/-- Creating a range is creating its first piece and then the rest. -/
theorem created_cons {c : Cfg} (hc : c.Valid) {sh : Sh} {lo k hi : Nat} {v : UInt8}
    (P : Piece c lo k) (he : lo + k = hi ∨ B ∣ lo + k) (hle : lo + k ≤ hi) :
    created c (created c sh lo k v) (lo + k) (hi - (lo + k)) v = created c sh lo (hi - lo) v := by
  have hp := P.pos
  rcases Nat.eq_or_lt_of_le hle with heq | hlt
  · rw [show hi - (lo + k) = 0 by omega, created_nil]
    congr 1; omega
  · have hd : B ∣ lo + k := by
      rcases he with he | he
      · omega
      · exact he
    have hS := S_bounds hc
    have hb := P.blk
    have hq : (lo + k) / B = lo / B + 1 := by rw [B_eq] at hb hd ⊢; omega
    have hnk : nom c (lo + k) = (lo / B + 1) * S c := by
      have := Umbra.scale_blk (u_valid hc) (lo / B + 1)
      have e : (lo / B + 1) * B = lo + k := by
        rw [← hq]; exact Nat.div_mul_cancel hd
      have hS' := S_eq hc
      simp only [Cfg.u] at this
      rw [e, ← hS'] at this
      exact this
    have hge : ∀ t, nom c (lo + k) ≤ t ↔ lo / B + 1 ≤ t / S c := by
      intro t; rw [hnk, Nat.le_div_iff_mul_le (by omega)]
    have hm1 : nom c lo ≤ nom c (lo + k) := Nat.div_le_div_right (Nat.mul_le_mul_right _ (by omega))
    have hm2 : nom c (lo + k) ≤ nom c hi := Nat.div_le_div_right (Nat.mul_le_mul_right _ hle)
    funext t
    have hget := hge t
    rw [created, show lo + k + (hi - (lo + k)) = hi by omega]
    have e2 : ∀ sh : Sh, created c sh lo (hi - lo) v t =
        if nom c lo ≤ t ∧ t < nom c hi then some v
        else if lo / B ≤ t / S c ∧ t / S c ≤ (hi - 1) / B then some ((sh t).getD c.dflt) else sh t := by
      intro sh
      rw [created, show lo + (hi - lo) = hi by omega]
      simp only [show (0 < hi - lo) = True by simp; omega, true_and]
    rw [e2]
    have hi1 : lo / B + 1 ≤ (hi - 1) / B := by
      rw [← hq]; exact Nat.div_le_div_right (by omega)
    rw [hq]
    by_cases c1 : nom c (lo + k) ≤ t ∧ t < nom c hi
    · rw [if_pos c1, if_pos (by omega)]
    · rw [if_neg c1]
      have e3 : created c sh lo k v t =
          if nom c lo ≤ t ∧ t < nom c (lo + k) then some v
          else if t / S c = lo / B then some ((sh t).getD c.dflt) else sh t := by
        rw [created]
        by_cases g1 : nom c lo ≤ t ∧ t < nom c (lo + k)
        · rw [if_pos g1, if_pos g1]
        · rw [if_neg g1, if_neg g1]
          by_cases g2 : t / S c = lo / B
          · rw [if_pos g2, if_pos (by omega)]
          · rw [if_neg g2, if_neg (by omega)]
      rw [e3]
      by_cases c2 : nom c lo ≤ t ∧ t < nom c (lo + k)
      · have := P.range hc c2.1 c2.2
        rw [if_neg (by omega), if_pos c2, if_pos (by omega)]
      · rw [if_neg c2]
        by_cases c3 : t / S c = lo / B
        · rw [if_neg (by omega), if_pos c3, if_neg (by omega), if_pos (by omega)]
        · rw [if_neg c3]
          by_cases c4 : lo / B + 1 ≤ t / S c ∧ t / S c ≤ (hi - 1) / B
          · rw [if_pos (by omega), if_neg (by omega), if_pos (by omega)]
          · rw [if_neg (by omega), if_neg (by omega), if_neg (by omega)]

theorem createLoop {c : Cfg} (hc : c.Valid) {al : Alloc} (ha : al.Good c) {shared : Bool} {a v : Nat}
    (hv : v < 255) {l : List (Nat × Nat)} {lo hi : Nat} (ht : Umbra.Tiles B l lo hi) :
    c.g ∣ lo → c.g ∣ hi → hi ≤ W → (lo = a ∨ B ∣ lo ∨ lo = hi) → ∀ e, e + 1 = hi → ∀ m, Inv c m →
    (loop (createPiece c al shared a e v) l m).2 = .oom ∨
    ((loop (createPiece c al shared a e v) l m).2 = .ok ∧
      Inv c (loop (createPiece c al shared a e v) l m).1 ∧
      view c (loop (createPiece c al shared a e v) l m).1 =
        created c (view c m) lo (hi - lo) (UInt8.ofNat v)) := by
  induction ht with
  | nil x =>
    intro _ _ _ _ e _ m hi
    right
    rw [Nat.sub_self, created_nil]
    exact ⟨rfl, hi, rfl⟩
  | cons lo k hi l hk hb hne he hl ih =>
    intro glo ghi hW hal e hee m hinv
    have hle := hl.le
    obtain ⟨P, ghk⟩ := tile_piece hc glo ghi hk hb he hle hW
    have hal' : lo = a ∨ B ∣ lo := by
      rcases hal with h | h | h
      · exact Or.inl h
      · exact Or.inr h
      · omega
    rw [loop]
    rcases createPiece_spec (shared := shared) (a := a) (e := e) hc ha hinv P hne hv hal'
      (by omega) with h | ⟨p1, p2, p3⟩
    · left
      generalize createPiece c al shared a e v m lo k = r at *
      obtain ⟨m1, st⟩ := r
      dsimp only at h
      subst h
      rfl
    · generalize createPiece c al shared a e v m lo k = r at *
      obtain ⟨m1, st⟩ := r
      dsimp only at *
      subst p1
      dsimp only
      have hal2 : lo + k = a ∨ B ∣ lo + k ∨ lo + k = hi := by
        rcases he with h | h
        · exact Or.inr (Or.inr h)
        · exact Or.inr (Or.inl h)
      have := ih ghk ghi hW hal2 e hee m1 p2
      rw [p3, created_cons hc P he hle] at this
      exact this

/-- Create: the range is present with the value. -/
theorem create_spec {c : Cfg} (hc : c.Valid) {al : Alloc} (ha : al.Good c) {m : Map} (hi : Inv c m)
    {shared : Bool} {a n v : Nat} (h : Ok c a n) (hv : v < 255) :
    (create c al m shared a n v).2 = .oom ∨
    ((create c al m shared a n v).2 = .ok ∧ Inv c (create c al m shared a n v).1 ∧
      view c (create c al m shared a n v).1 = created c (view c m) a n (UInt8.ofNat v)) := by
  have hp := h.pos
  rw [create, if_neg (by omega), overflows_false h.pos h.le, if_neg (by simp)]
  have := createLoop (shared := shared) (a := a) hc ha hv h.tiles h.ga (Nat.dvd_add h.ga h.gn) h.le
    (Or.inl rfl) (a + (n - 1)) (by omega) m hi
  rwa [Nat.add_sub_cancel_left] at this

/-! ## Read -/

theorem readLoop {c : Cfg} (hc : c.Valid) {m : Map} (hinv : Inv c m)
    {l : List (Nat × Nat)} {lo hi : Nat} (ht : Umbra.Tiles B l lo hi) :
    c.g ∣ lo → c.g ∣ hi → hi ≤ W → ∀ out : List UInt8,
    loop (fun out start iter =>
      if isDefault c m (appToShadow c m start) then (out, Status.invalidParameter)
      else (out ++ (List.range (scale c iter)).map fun i => m.mem (appToShadow c m start + i), .ok))
      l out =
    (out ++ (List.range (run (view c m) (nom c lo) (nom c hi - nom c lo))).map
        (fun i => (view c m (nom c lo + i)).getD 0),
     if run (view c m) (nom c lo) (nom c hi - nom c lo) = nom c hi - nom c lo then .ok
     else .invalidParameter) := by
  induction ht with
  | nil x =>
    intro _ _ _ out
    rw [Nat.sub_self, loop, run]
    simp
  | cons lo k hi l hk hb hne he hl ih =>
    intro glo ghi hW out
    have hle := hl.le
    obtain ⟨P, ghk⟩ := tile_piece hc glo ghi hk hb he hle hW
    obtain ⟨n1, n2, n3, n4, n5⟩ := P.facts hc
    have hmono : nom c (lo + k) ≤ nom c hi := Nat.div_le_div_right (Nat.mul_le_mul_right _ hle)
    have e2 := (P.idx hc n4).1
    rw [Nat.add_zero] at e2
    rw [loop]
    have hdi : isDefault c m (appToShadow c m lo) = true ↔ view c m (nom c lo) = none := by
      rw [appToShadow_eq hc hinv, isDefault_iff hc hinv (hinv.tbl _) (scale_off_lt hc _), view_none_iff, e2]
    by_cases hv : view c m (nom c lo) = none
    · rw [if_pos (hdi.2 hv), run_none hv, if_neg (by omega)]
      simp
    · have hv' : (view c m (nom c lo)).isSome = true := Option.ne_none_iff_isSome.1 hv
      have hall : ∀ i, i < scale c k → (view c m (nom c lo + i)).isSome = true := by
        intro i hi'; rw [P.some_iff hc hi', hv']
      have hR := run_add (scale c k) (nom c hi - nom c (lo + k)) hall
      rw [show scale c k + (nom c hi - nom c (lo + k)) = nom c hi - nom c lo by omega] at hR
      rw [if_neg (fun h => hv (hdi.1 h))]
      dsimp only
      rw [ih ghk ghi hW, hR, n5]
      congr 1
      · rw [List.append_assoc, List.range_add, List.map_append, List.map_map]
        congr 2
        · apply List.map_congr_left
          intro i hi'
          rw [List.mem_range] at hi'
          have hidx := P.idx hc hi'
          rw [view, hidx.1, hidx.2, if_neg]
          · rw [appToShadow_eq hc hinv, Option.getD_some, Nat.add_assoc]
          · intro hd
            apply hv
            rw [view_none_iff, e2]; exact hd
        · apply List.map_congr_left
          intro i _
          simp only [Function.comp, Nat.add_assoc]
      · by_cases h1 : run (view c m) (nom c lo + scale c k) (nom c hi - (nom c lo + scale c k)) =
            nom c hi - (nom c lo + scale c k)
        · rw [if_pos h1, if_pos (by omega)]
        · rw [if_neg h1, if_neg (by omega)]

/-- Read: the bytes a user sees, up to the first missing one. -/
theorem read_spec {c : Cfg} (hc : c.Valid) {m : Map} (hi : Inv c m) {a n sz : Nat} (h : Ok c a n)
    (hsz : scale c n ≤ sz) :
    read c m a n sz = ((List.range (run (view c m) (nom c a) (nom c n))).map
        (fun i => (view c m (nom c a + i)).getD 0),
      if run (view c m) (nom c a) (nom c n) = nom c n then .ok else .invalidParameter) := by
  rw [read, if_neg (by omega), overflows_false h.pos h.le, if_neg (by simp)]
  have := readLoop hc hi h.tiles h.ga (Nat.dvd_add h.ga h.gn) h.le []
  rw [h.nom_add hc, Nat.add_sub_cancel_left, List.nil_append] at this
  exact this

/-! ## Clearing redundant blocks -/

theorem clearFold {c : Cfg} (hc : c.Valid) (ht : c.onTouch = true) (l : List Nat) :
    ∀ (m : Map) (n : Nat), Inv c m → l.Nodup →
    Inv c (l.foldl (clearOne c) (m, n)).1 ∧ view c (l.foldl (clearOne c) (m, n)).1 = view c m ∧
    (l.foldl (clearOne c) (m, n)).1.specials = m.specials ∧
    (∀ j, j ∉ l → getBlock c (l.foldl (clearOne c) (m, n)).1 j = getBlock c m j) ∧
    (∀ i, i ∈ l → (∃ p ∈ m.specials, p.1 = getBlock c (l.foldl (clearOne c) (m, n)).1 i) ∨
      ∃ t, t / S c = i ∧ view c m t ≠ some c.dflt) := by
  induction l with
  | nil => intro m n hi _; exact ⟨hi, rfl, rfl, fun _ _ => rfl, fun i h => by simp at h⟩
  | cons x l ih =>
    intro m n hi hnd
    rw [List.nodup_cons] at hnd
    obtain ⟨c1, c2, c3, c4, c5⟩ := clearOne_spec hc ht hi n x
    rw [List.foldl_cons]
    generalize hr : clearOne c (m, n) x = r at *
    obtain ⟨m1, n1⟩ := r
    dsimp only at *
    obtain ⟨i1, i2, i3, i4, i5⟩ := ih m1 n1 c1 hnd.2
    refine ⟨i1, i2.trans c2, i3.trans c3, ?_, ?_⟩
    · intro j hj
      rw [List.mem_cons, not_or] at hj
      rw [i4 j hj.2, c4 j hj.1]
    · intro i hmem
      rw [List.mem_cons] at hmem
      by_cases hx : i = x
      · subst hx
        rw [i4 i hnd.1]
        rcases c5 with h | ⟨h1, h2⟩
        · left
          rcases h with ⟨h, -⟩ | h
          · rw [ht] at h; simp at h
          · exact h
        · exact Or.inr h2
      · have := i5 i (hmem.resolve_left hx)
        rw [c2, c3] at this
        exact this

end Verif.Umbra32
