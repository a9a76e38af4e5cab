import Verif.UmbraRange

/-!
# Umbra range operations address exactly the requested bytes (C14)

Specification: the shadow is a total map `view` from shadow indices to bytes in which blocks that
were never allocated hold the map's default value.
-/
namespace Verif.Umbra

/-- Configuration sanity: block size a power-of-two-like divisor of the address space, a multiple
of the granule and larger than one byte. -/
structure Cfg.Valid (c : Cfg) : Prop where
  gpos : 0 < c.g
  mpos : 0 < c.m
  B2 : 1 < c.B
  gB : c.g ∣ c.B
  BT : c.B ∣ top

/-- The shadow byte at index `t` as seen by a user: default where no block exists. -/
def view (c : Cfg) (s : St) (t : Nat) : UInt8 :=
  if s.ex (t / (c.B * c.m / c.g)) then s.mem t else c.dflt

/-! ## The loop tiles the range -/

/-- `l` cuts `[lo,hi)` into consecutive non-empty pieces, each inside one block. -/
inductive Tiles (B : Nat) : List (Nat × Nat) → Nat → Nat → Prop
  | nil (x) : Tiles B [] x x
  | cons (lo k hi l) : 0 < k → lo / B = (lo + k - 1) / B → ¬ (k = 1 ∧ lo % B = 0) →
      (lo + k = hi ∨ B ∣ lo + k) → Tiles B l (lo + k) hi → Tiles B ((lo, k) :: l) lo hi

theorem piecesGo_tiles {B a e : Nat} (hB : 1 < B) (hae : a ≤ e) (he : e < top) :
    ∀ f q, a / B ≤ q → q * B ≤ e → e < q * B + f * B →
      Tiles B (piecesGo B a e f (q * B)) (max a (q * B)) (if e % B = 0 then e else e + 1) := by
  intro f
  induction f with
  | zero => intro q _ h1 h2; omega
  | succ f ih =>
    intro q hq h1 h2
    have hB0 : 0 < B := by omega
    have hdm : a / B * B + a % B = a := by rw [Nat.mul_comm]; exact Nat.div_add_mod a B
    have hal : a % B < B := Nat.mod_lt _ hB0
    have haq : a < q * B + B := by
      have : a / B * B ≤ q * B := Nat.mul_le_mul_right _ hq
      omega
    rw [piecesGo]
    by_cases hlt : q * B < e
    · rw [if_pos hlt]
      dsimp only
      have hstart : (if a > q * B then a else q * B) = max a (q * B) := by
        split <;> omega
      rw [hstart]
      have hq1 : (q + 1) * B = q * B + B := Nat.succ_mul q B
      have hle : q * B ≤ max a (q * B) := Nat.le_max_right ..
      have hlo : max a (q * B) < (q + 1) * B := by rw [hq1]; omega
      have hdiv : max a (q * B) / B = q :=
        Nat.div_eq_of_lt_le (by omega) hlo
      have hmax_e : max a (q * B) ≤ e := by omega
      by_cases hend : e < q * B + (B - 1)
      · rw [if_pos hend]
        have hem : e / B = q := Nat.div_eq_of_lt_le (by omega) (by omega)
        have hne : e % B ≠ 0 := by
          intro h
          have := Nat.div_add_mod e B
          rw [hem, h, Nat.mul_comm] at this; omega
        rw [if_neg hne]
        refine Tiles.cons _ _ _ _ (by omega) ?_ ?_ ?_ ?_
        · rw [hdiv, show max a (q * B) + (e - max a (q * B) + 1) - 1 = e by omega, hem]
        · rintro ⟨hk, hmod⟩
          have : max a (q*B) = e := by omega
          rw [this] at hmod; exact hne hmod
        · left; omega
        · rw [show max a (q * B) + (e - max a (q * B) + 1) = e + 1 by omega]
          have hnil : ∀ f, piecesGo B a e f
              (if q * B + (B - 1) + 1 ≥ top then e else q * B + (B - 1) + 1) = [] := by
            intro f
            cases f with
            | zero => rfl
            | succ f => rw [piecesGo, if_neg]; split <;> omega
          rw [hnil]
          exact Tiles.nil _
      · rw [if_neg hend]
        have hbe : q * B + (B - 1) + 1 = (q + 1) * B := by omega
        rw [hbe]
        refine Tiles.cons _ _ _ _ (by omega) ?_ ?_ ?_ ?_
        · rw [hdiv, show max a (q * B) + (q * B + (B - 1) - max a (q * B) + 1) - 1
              = q * B + (B - 1) by omega]
          exact (Nat.div_eq_of_lt_le (by omega) (by omega)).symm
        · rintro ⟨hk, hmod⟩
          have hm : max a (q*B) = q * B + (B - 1) := by omega
          rw [hm, Nat.add_mod, Nat.mul_mod_left, Nat.zero_add, Nat.mod_mod,
            Nat.mod_eq_of_lt (by omega)] at hmod
          omega
        · right
          rw [show max a (q * B) + (q * B + (B - 1) - max a (q * B) + 1) = (q + 1) * B by omega]
          exact Nat.dvd_mul_left ..
        · rw [show max a (q * B) + (q * B + (B - 1) - max a (q * B) + 1) = (q + 1) * B by omega]
          by_cases htop : (q + 1) * B ≥ top
          · rw [if_pos htop]
            have hnil : ∀ f, piecesGo B a e f e = [] := by
              intro f
              cases f with
              | zero => rfl
              | succ f => rw [piecesGo, if_neg (by omega)]
            rw [hnil]
            have hee : e + 1 = (q + 1) * B := by omega
            have hne : e % B ≠ 0 := by
              have : e = B * q + (B - 1) := by rw [Nat.mul_comm]; omega
              rw [this, Nat.mul_add_mod, Nat.mod_eq_of_lt (by omega)]; omega
            rw [if_neg hne, hee]
            exact Tiles.nil _
          · rw [if_neg htop]
            by_cases hqe : (q + 1) * B ≤ e
            · have := ih (q + 1) (by omega) hqe (by rw [Nat.add_mul f] at h2; omega)
              rwa [Nat.max_eq_right (by omega)] at this
            · have hnil : ∀ f, piecesGo B a e f ((q + 1) * B) = [] := by
                intro f
                cases f with
                | zero => rfl
                | succ f => rw [piecesGo, if_neg (by omega)]
              rw [hnil]
              have hee : e + 1 = (q + 1) * B := by omega
              have hne : e % B ≠ 0 := by
                have : e = B * q + (B - 1) := by rw [Nat.mul_comm]; omega
                rw [this, Nat.mul_add_mod, Nat.mod_eq_of_lt (by omega)]; omega
              rw [if_neg hne, hee]
              exact Tiles.nil _
    · rw [if_neg hlt]
      have : e = q * B := by omega
      have hm : e % B = 0 := by rw [this]; exact Nat.mul_mod_left ..
      rw [if_pos hm, show max a (q * B) = e by omega]
      exact Tiles.nil _

theorem pieces_tiles {B a n : Nat} (hB : 1 < B) (hn : 0 < n)
    (ht : a + n ≤ top) :
    Tiles B (pieces B a n) a (if (a + n - 1) % B = 0 then a + n - 1 else a + n) := by
  have hB0 : 0 < B := by omega
  have h1 : a / B * B ≤ a := Nat.div_mul_le_self a B
  have h2 : a < a / B * B + B := by
    have h1 := Nat.div_add_mod a B
    have := Nat.mod_lt a hB0
    rw [Nat.mul_comm] at h1; omega
  have h3 : n ≤ n * B := Nat.le_mul_of_pos_right _ hB0
  have := piecesGo_tiles (a := a) (e := a + (n - 1)) hB (by omega) (by omega) (n + 1) (a / B)
    (Nat.le_refl _) (by omega) (by rw [Nat.add_mul n]; omega)
  rw [Nat.max_eq_left h1] at this
  rw [pieces, show a + n - 1 = a + (n - 1) by omega]
  rw [show a + n = a + (n - 1) + 1 by omega]
  exact this

theorem Tiles.le {B : Nat} {l : List (Nat × Nat)} {lo hi : Nat} (h : Tiles B l lo hi) :
    lo ≤ hi := by
  induction h with
  | nil => exact Nat.le_refl _
  | cons _ _ _ _ hk _ _ _ _ ih => omega


theorem pieces_single {B start k : Nat} (hB : 1 < B) (hk : 0 < k)
    (hb : start / B = (start + k - 1) / B) (hne : ¬ (k = 1 ∧ start % B = 0)) :
    pieces B start k = [(start, k)] := by
  have hB0 : 0 < B := by omega
  have h1 := Nat.div_add_mod start B
  have h2 := Nat.mod_lt start hB0
  have h3 := Nat.div_add_mod (start + k - 1) B
  have h4 := Nat.mod_lt (start + k - 1) hB0
  rw [← hb] at h3
  rw [Nat.mul_comm] at h1 h3
  rw [pieces, piecesGo]
  rw [if_pos (by omega)]
  dsimp only
  have e1 : (if start > start / B * B then start else start / B * B) = start := by
    split <;> omega
  have e2 : (if start + (k - 1) < start / B * B + (B - 1) then start + (k - 1)
      else start / B * B + (B - 1)) = start + (k - 1) := by split <;> omega
  rw [e1, e2, show start + (k - 1) - start + 1 = k by omega]
  congr 1
  cases k with
  | zero => rfl
  | succ f => rw [piecesGo, if_neg]; split <;> omega

/-! ## Scaling -/

theorem scale_mul {c : Cfg} (hc : c.Valid) (u : Nat) : scale c (c.g * u) = u * c.m := by
  rw [scale, Nat.mul_assoc, Nat.mul_div_cancel_left _ hc.gpos]

theorem scale_add {c : Cfg} (hc : c.Valid) {a n : Nat} (ha : c.g ∣ a) (hn : c.g ∣ n) :
    scale c (a + n) = scale c a + scale c n := by
  obtain ⟨u, rfl⟩ := ha
  obtain ⟨w, rfl⟩ := hn
  rw [← Nat.mul_add, scale_mul hc, scale_mul hc, scale_mul hc, Nat.add_mul]

theorem S_pos {c : Cfg} (hc : c.Valid) : 0 < c.B * c.m / c.g := by
  obtain ⟨b, hb⟩ := hc.gB
  have h0 : 0 < b := by
    rcases Nat.eq_zero_or_pos b with h | h
    · subst h; have := hc.B2; simp at hb; omega
    · exact h
  rw [hb, Nat.mul_assoc, Nat.mul_div_cancel_left _ hc.gpos]
  exact Nat.mul_pos h0 hc.mpos

theorem scale_blk {c : Cfg} (hc : c.Valid) (k : Nat) :
    scale c (k * c.B) = k * (c.B * c.m / c.g) := by
  obtain ⟨b, hb⟩ := hc.gB
  have e : k * (c.g * b) * c.m = c.g * (k * (b * c.m)) := by
    rw [Nat.mul_left_comm k, Nat.mul_assoc c.g, Nat.mul_assoc k]
  rw [scale, hb, e, Nat.mul_div_cancel_left _ hc.gpos, Nat.mul_assoc,
    Nat.mul_div_cancel_left _ hc.gpos]

/-- The shadow of a piece that lies in application block `k` lies in shadow block `k`. -/
theorem piece_block {c : Cfg} (hc : c.Valid) {start iter t : Nat} (hs : c.g ∣ start)
    (hi : c.g ∣ iter) (h0 : 0 < iter) (hb : start / c.B = (start + iter - 1) / c.B)
    (h1 : scale c start ≤ t) (h2 : t < scale c start + scale c iter) :
    t / (c.B * c.m / c.g) = start / c.B := by
  have hB0 : 0 < c.B := by have := hc.B2; omega
  have d1 := Nat.div_add_mod start c.B
  have d2 := Nat.mod_lt start hB0
  have d3 := Nat.div_add_mod (start + iter - 1) c.B
  have d4 := Nat.mod_lt (start + iter - 1) hB0
  rw [← hb] at d3
  rw [Nat.mul_comm] at d1 d3
  have hsub : c.g ∣ start / c.B * c.B := Nat.dvd_trans hc.gB (Nat.dvd_mul_left ..)
  have hge : start / c.B * (c.B * c.m / c.g) ≤ scale c start := by
    rw [← scale_blk hc]
    exact Nat.div_le_div_right (Nat.mul_le_mul_right _ (by omega))
  have hle : scale c (start + iter) ≤ (start / c.B + 1) * (c.B * c.m / c.g) := by
    rw [← scale_blk hc]
    refine Nat.div_le_div_right (Nat.mul_le_mul_right _ ?_)
    rw [Nat.succ_mul]; omega
  rw [scale_add hc hs hi] at hle
  exact Nat.div_eq_of_lt_le (by omega) (by omega)

/-! ## Creation on touch -/

theorem overflows_false {a n : Nat} (hn : 0 < n) (h : a + n ≤ top) : overflows a n = false := by
  unfold overflows
  rw [if_neg (by omega)]
  simp; omega

theorem create_block {c : Cfg} (hc : c.Valid) {k : Nat} (s : St) (v : UInt8) (hv : v ≠ 255)
    (hk : (k + 1) * c.B ≤ top) :
    ∃ s', create c (k * c.B) c.B v s = .ok s' ∧ (∀ j, s'.ex j = (s.ex j || decide (j = k))) ∧
      ∀ t, s'.mem t = if t / (c.B * c.m / c.g) = k then v else s.mem t := by
  have hB := hc.B2
  have hB0 : 0 < c.B := by omega
  have hdiv : k * c.B / c.B = k := Nat.mul_div_cancel _ hB0
  have hs1 : (k + 1) * c.B = k * c.B + c.B := Nat.succ_mul ..
  have hp : pieces c.B (k * c.B) c.B = [(k * c.B, c.B)] := by
    refine pieces_single hB hB0 ?_ (by omega)
    rw [hdiv]
    exact (Nat.div_eq_of_lt_le (by omega) (by omega)).symm
  have hov : overflows (k * c.B) c.B = false := overflows_false hB0 (by omega)
  have hex : (allocBlock c k s).ex k = true := by
    unfold allocBlock; split
    · assumption
    · simp
  refine ⟨{ allocBlock c k s with
      mem := memset (allocBlock c k s).mem (scale c (k * c.B)) (scale c c.B) v }, ?_, ?_, ?_⟩
  · simp only [create, hv, if_false, hov, hp, List.foldlM_cons, List.foldlM_nil, hdiv,
      setRangeWith, touchWith, Bool.false_eq_true, hex, if_true, pure, bind, Except.pure, Except.bind]
  · intro j
    simp only [allocBlock]
    split
    · by_cases hj : j = k <;> simp [*]
    · by_cases hj : j = k <;> simp [*]
  · intro t
    have hS := S_pos hc
    have hb1 : scale c (k * c.B) = k * (c.B * c.m / c.g) := scale_blk hc k
    have hb2 : scale c c.B = c.B * c.m / c.g := rfl
    have hiff : (t / (c.B * c.m / c.g) = k) ↔
        (k * (c.B * c.m / c.g) ≤ t ∧ t < k * (c.B * c.m / c.g) + c.B * c.m / c.g) := by
      rw [Nat.div_eq_iff hS]
      omega
    simp only [memset, hb1, hb2, hiff]
    split
    · rfl
    · rename_i h
      unfold allocBlock
      split
      · rfl
      · simp only [memset, hb1, hb2, if_neg h]

theorem touch_ok {c : Cfg} (hc : c.Valid) (ht : c.onTouch = true) (hd : c.dflt ≠ 255)
    {start : Nat} (hs : start < top) (s : St) :
    ∃ s', touch c start s = .ok s' ∧ s'.ex (start / c.B) = true ∧
      (∀ k, s.ex k = true → s'.ex k = true) ∧ ∀ t, view c s' t = view c s t := by
  unfold touch touchWith
  by_cases he : s.ex (start / c.B) = true
  · exact ⟨s, by simp [he, pure, Except.pure], he, fun _ h => h, fun _ => rfl⟩
  · have hB0 : 0 < c.B := by have := hc.B2; omega
    have hk : (start / c.B + 1) * c.B ≤ top := by
      obtain ⟨q, hq⟩ := hc.BT
      rw [hq, Nat.mul_comm c.B q] at hs ⊢
      exact Nat.mul_le_mul_right _ (Nat.div_lt_of_lt_mul (by rwa [Nat.mul_comm]))
    obtain ⟨s', h1, h2, h3⟩ := create_block hc s c.dflt hd hk
    refine ⟨s', ?_, ?_, ?_, ?_⟩
    · simp [he, ht, h1]
    · simp [h2]
    · intro k hk; simp [h2, hk]
    · intro t
      unfold view
      rw [h2, h3]
      by_cases hkt : t / (c.B * c.m / c.g) = start / c.B
      · simp [hkt, he]
      · simp [hkt]

/-! ## Folding over the pieces -/


theorem fold_touch {c : Cfg} (hc : c.Valid) (ht : c.onTouch = true) (hd : c.dflt ≠ 255)
    {α : Type} (upd : St → α → Nat → Nat → Res (St × α)) (P : Nat → St → α → Prop) {H : Nat}
    (hT : ∀ p s s' x, P p s x → (∀ k, s.ex k = true → s'.ex k = true) →
      (∀ t, view c s' t = view c s t) → P p s' x)
    (hU : ∀ p k s x, c.g ∣ p → c.g ∣ k → 0 < k → p / c.B = (p + k - 1) / c.B →
      ¬ (k = 1 ∧ p % c.B = 0) → p + k ≤ H →
      s.ex (p / c.B) = true → P p s x → ∃ s' x', upd s x p k = .ok (s', x') ∧ P (p + k) s' x')
    {l : List (Nat × Nat)} {lo hi : Nat} (hl : Tiles c.B l lo hi)
    (hlo : c.g ∣ lo) (hhi : c.g ∣ hi) (hH : hi ≤ H) (htop : hi ≤ top) :
    ∀ (s : St) (x : α), P lo s x → ∃ s' x',
      l.foldlM (m := Res) (init := (s, x))
        (fun (sx : St × α) (q : Nat × Nat) => touch c q.1 sx.1 >>= fun s => upd s sx.2 q.1 q.2)
        = .ok (s', x') ∧ P hi s' x' := by
  induction hl with
  | nil p => intro s x hP; exact ⟨s, x, rfl, hP⟩
  | cons lo k hi l hk hb hn hor hl ih =>
    intro s x hP
    have hle := hl.le
    obtain ⟨s1, e1, hex, hmono, hv⟩ := touch_ok hc ht hd (start := lo) (by omega) s
    have hg : c.g ∣ lo + k := by
      rcases hor with h | h
      · rwa [h]
      · exact Nat.dvd_trans hc.gB h
    have hgk : c.g ∣ k := (Nat.dvd_add_right hlo).mp hg
    obtain ⟨s2, x2, e2, hP2⟩ := hU lo k s1 x hlo hgk hk hb hn (by omega) hex
      (hT lo s s1 x hP hmono hv)
    obtain ⟨s3, x3, e3, hP3⟩ := ih hg hhi hH htop s2 x2 hP2
    refine ⟨s3, x3, ?_, hP3⟩
    rw [List.foldlM_cons]
    simp only [e1, bind, Except.bind, e2]
    exact e3

/-! ## Hypotheses on a range -/

/-- A range the operations can handle: granule-aligned, not empty, inside the address space, and
not ending exactly one byte into a block. -/
structure Ok (c : Cfg) (a n : Nat) : Prop where
  ga : c.g ∣ a
  gn : c.g ∣ n
  pos : 0 < n
  le : a + n ≤ top
  last : (a + n - 1) % c.B ≠ 0

/-- With two or more application bytes per shadow unit the last condition holds by alignment. -/
theorem Ok.of_granule {c : Cfg} (hc : c.Valid) (hg : 1 < c.g) {a n : Nat} (ga : c.g ∣ a)
    (gn : c.g ∣ n) (pos : 0 < n) (le : a + n ≤ top) : Ok c a n := by
  refine ⟨ga, gn, pos, le, fun h => ?_⟩
  have h1 : c.g ∣ a + n - 1 := Nat.dvd_trans hc.gB (Nat.dvd_of_mod_eq_zero h)
  have h2 : c.g ∣ a + n := Nat.dvd_add ga gn
  have h3 : c.g ∣ (a + n) - (a + n - 1) := Nat.dvd_sub h2 h1
  rw [show (a + n) - (a + n - 1) = 1 by omega] at h3
  have := Nat.le_of_dvd (by omega) h3
  omega

theorem Ok.tiles {c : Cfg} (hc : c.Valid) {a n : Nat} (h : Ok c a n) :
    Tiles c.B (pieces c.B a n) a (a + n) := by
  have := pieces_tiles (a := a) hc.B2 h.pos h.le
  rwa [if_neg h.last] at this

theorem scale_le {c : Cfg} {a b : Nat} (h : a ≤ b) : scale c a ≤ scale c b :=
  Nat.div_le_div_right (Nat.mul_le_mul_right _ h)


/-- Writing the piece at `p` in an allocated block, seen through `view`. -/
theorem view_put {c : Cfg} (hc : c.Valid) {p k : Nat} {s : St} (gp : c.g ∣ p) (gk : c.g ∣ k)
    (hk : 0 < k) (hb : p / c.B = (p + k - 1) / c.B) (he : s.ex (p / c.B) = true)
    (src : Nat → UInt8) (t : Nat) :
    view c { s with mem := memput s.mem (scale c p) (scale c k) src } t =
      if scale c p ≤ t ∧ t < scale c p + scale c k then src (t - scale c p) else view c s t := by
  unfold view memput
  dsimp only
  by_cases h : scale c p ≤ t ∧ t < scale c p + scale c k
  · rw [if_pos h, piece_block hc gp gk hk hb h.1 h.2, he, if_pos rfl, if_pos h]
  · rw [if_neg h, if_neg h]

theorem memset_eq (mem : Nat → UInt8) (i n : Nat) (v : UInt8) :
    memset mem i n v = memput mem i n (fun _ => v) := rfl

/-! ## C14 -/

theorem setRange_full {c : Cfg} (hc : c.Valid) (ht : c.onTouch = true) (hd : c.dflt ≠ 255)
    {a n : Nat} (h : Ok c a n) (v : UInt8) (s : St) :
    ∃ s', setRange c a n v s = .ok (s', scale c n) ∧ (∀ k, s.ex k = true → s'.ex k = true) ∧
      ∀ t, view c s' t = if scale c a ≤ t ∧ t < scale c a + scale c n then v else view c s t := by
  have hsa := scale_add hc h.ga h.gn
  obtain ⟨s', x', e, -, hx, hm, hv⟩ := fold_touch hc ht hd
    (fun (s : St) (sz : Nat) start iter =>
      pure ({ s with mem := memset s.mem (scale c start) (scale c iter) v }, sz + scale c iter))
    (fun p s' x => a ≤ p ∧ scale c a + x = scale c p ∧ (∀ k, s.ex k = true → s'.ex k = true) ∧
      ∀ t, view c s' t = if scale c a ≤ t ∧ t < scale c p then v else view c s t)
    (H := a + n)
    (by
      intro p s s' x ⟨h0, h1, h3, h2⟩ hm hv
      exact ⟨h0, h1, fun k hk => hm k (h3 k hk), fun t => by rw [hv, h2]⟩)
    (by
      intro p k s1 x gp gk hk hb hn hle he ⟨h0, h1, h3, h2⟩
      have := scale_add hc gp gk
      have := scale_le (c := c) h0
      refine ⟨_, _, rfl, by omega, by omega, h3, fun t => ?_⟩
      rw [memset_eq, view_put hc gp gk hk hb he, h2]
      split <;> split <;> (try split) <;> first | rfl | (exfalso; omega))
    (h.tiles hc) h.ga (Nat.dvd_add h.ga h.gn) (Nat.le_refl _) h.le s 0
    ⟨Nat.le_refl _, by omega, fun _ h => h, fun t => by rw [if_neg (by omega)]⟩
  refine ⟨s', ?_, hm, fun t => by rw [hv, hsa]⟩
  have hx' : x' = scale c n := by omega
  rw [← hx', ← e]
  unfold setRange setRangeWith
  rw [overflows_false h.pos h.le]
  rfl

/-! ## Explicit creation -/

/-- One round of the create loop: allocate the block and set the piece. -/
def createStep (c : Cfg) (p k : Nat) (v : UInt8) (s : St) : St :=
  { allocBlock c (p / c.B) s with
      mem := memset (allocBlock c (p / c.B) s).mem (scale c p) (scale c k) v }

theorem alloc_ex (c : Cfg) (q : Nat) (s : St) (j : Nat) :
    (allocBlock c q s).ex j = (s.ex j || decide (j = q)) := by
  unfold allocBlock
  split
  · by_cases hj : j = q <;> simp [*]
  · by_cases hj : j = q <;> simp [*]

theorem alloc_mem {c : Cfg} (hc : c.Valid) (q : Nat) (s : St) (t : Nat) :
    (allocBlock c q s).mem t
      = if s.ex q = false ∧ t / (c.B * c.m / c.g) = q then 0 else s.mem t := by
  have hS := S_pos hc
  have hb1 : scale c (q * c.B) = q * (c.B * c.m / c.g) := scale_blk hc q
  have hb2 : scale c c.B = c.B * c.m / c.g := rfl
  have hiff : (t / (c.B * c.m / c.g) = q) ↔
      (q * (c.B * c.m / c.g) ≤ t ∧ t < q * (c.B * c.m / c.g) + c.B * c.m / c.g) := by
    rw [Nat.div_eq_iff hS]; omega
  unfold allocBlock
  cases he : s.ex q with
  | true => simp
  | false => simp [memset, hb1, hb2, hiff]

theorem create_fold {c : Cfg} (hc : c.Valid) (v : UInt8) {l : List (Nat × Nat)} {lo hi : Nat}
    (hl : Tiles c.B l lo hi) (htop : hi ≤ top) (s : St) :
    l.foldlM (m := Res) (init := s) (fun s q =>
      match setRangeWith c (fun _ _ _ _ => .error .error) q.1 q.2 v (allocBlock c (q.1 / c.B) s) with
      | .ok (s, _) => pure s
      | .error _ => .error .error)
      = .ok (l.foldl (fun s q => createStep c q.1 q.2 v s) s) := by
  induction hl generalizing s with
  | nil => rfl
  | cons lo k hi l hk hb hn hor hl ih =>
    have hle := hl.le
    rw [List.foldlM_cons, List.foldl_cons]
    have hex : (allocBlock c (lo / c.B) s).ex (lo / c.B) = true := by rw [alloc_ex]; simp
    have : setRangeWith c (fun _ _ _ _ => .error .error) lo k v (allocBlock c (lo / c.B) s)
        = .ok (createStep c lo k v s, 0 + scale c k) := by
      unfold setRangeWith
      rw [overflows_false hk (by omega), pieces_single hc.B2 hk hb hn]
      simp only [Bool.false_eq_true, if_false, List.foldlM_cons, List.foldlM_nil, touchWith, hex,
        if_true, pure, bind, Except.pure, Except.bind]
      rfl
    simp only [this, pure, bind, Except.pure, Except.bind]
    exact ih htop _

/-- C14: `umbra_create_shadow_memory` gives every shadow byte of the range the value.  The blocks
the range touches exist afterwards; those that did not exist hold zero outside the range, and no
other byte changes. -/
theorem C14_create {c : Cfg} (hc : c.Valid) {a n : Nat} (h : Ok c a n) (v : UInt8) (hv : v ≠ 255)
    (s : St) :
    ∃ s', create c a n v s = .ok s' ∧
      (∀ k, s'.ex k = (s.ex k || decide (a / c.B ≤ k ∧ k ≤ (a + n - 1) / c.B))) ∧
      ∀ t, s'.mem t = if scale c a ≤ t ∧ t < scale c a + scale c n then v
        else if s.ex (t / (c.B * c.m / c.g)) = false ∧ a / c.B ≤ t / (c.B * c.m / c.g) ∧
          t / (c.B * c.m / c.g) ≤ (a + n - 1) / c.B then 0
        else s.mem t := by
  have hB0 : 0 < c.B := by have := hc.B2; omega
  have hS := S_pos hc
  have hfold : ∀ (l : List (Nat × Nat)) (lo hi : Nat), Tiles c.B l lo hi → a ≤ lo → hi ≤ a + n →
      c.g ∣ lo → c.g ∣ hi → ∀ s1 : St,
      (∀ k, s1.ex k = (s.ex k || decide (a / c.B ≤ k ∧ k * c.B < lo ∧ a < lo))) →
      (∀ t, s1.mem t = if scale c a ≤ t ∧ t < scale c lo then v
        else if s.ex (t / (c.B * c.m / c.g)) = false ∧ s1.ex (t / (c.B * c.m / c.g)) = true then 0
        else s.mem t) →
      (∀ k, (l.foldl (fun s q => createStep c q.1 q.2 v s) s1).ex k
        = (s.ex k || decide (a / c.B ≤ k ∧ k * c.B < hi ∧ a < hi))) ∧
      (∀ t, (l.foldl (fun s q => createStep c q.1 q.2 v s) s1).mem t
        = if scale c a ≤ t ∧ t < scale c hi then v
        else if s.ex (t / (c.B * c.m / c.g)) = false ∧
          (l.foldl (fun s q => createStep c q.1 q.2 v s) s1).ex (t / (c.B * c.m / c.g)) = true then 0
        else s.mem t) := by
    intro l lo hi hl
    induction hl with
    | nil p => intro _ _ _ _ s1 h1 h2; exact ⟨h1, h2⟩
    | cons lo k hi l hk hb hn hor hl ih =>
      intro hlo hhi glo ghi s1 h1 h2
      rw [List.foldl_cons]
      have hle := hl.le
      have gk' : c.g ∣ lo + k := by
        rcases hor with h | h
        · rwa [h]
        · exact Nat.dvd_trans hc.gB h
      have gk : c.g ∣ k := (Nat.dvd_add_right glo).mp gk'
      have d1 := Nat.div_add_mod lo c.B
      have d2 := Nat.mod_lt lo hB0
      have d3 := Nat.div_add_mod (lo + k - 1) c.B
      have d4 := Nat.mod_lt (lo + k - 1) hB0
      rw [← hb] at d3
      rw [Nat.mul_comm] at d1 d3
      have haq : a / c.B ≤ lo / c.B := Nat.div_le_div_right hlo
      have hsk := scale_add hc glo gk
      have hsl := scale_le (c := c) hlo
      have hex : ∀ j, (createStep c lo k v s1).ex j
          = (s.ex j || decide (a / c.B ≤ j ∧ j * c.B < lo + k ∧ a < lo + k)) := by
        intro j
        show (allocBlock c (lo / c.B) s1).ex j = _
        rw [alloc_ex, h1, Bool.or_assoc]
        congr 1
        rw [← Bool.decide_or]
        congr 1
        apply propext
        rcases Nat.lt_trichotomy j (lo / c.B) with hj | hj | hj
        · have := Nat.mul_le_mul_right c.B (show j + 1 ≤ lo / c.B by omega)
          rw [Nat.succ_mul] at this
          by_cases haj : a / c.B ≤ j
          · have := Nat.mul_le_mul_right c.B haj
            have e1 := Nat.div_add_mod a c.B
            have e2 := Nat.mod_lt a hB0
            rw [Nat.mul_comm] at e1
            omega
          · omega
        · subst hj; omega
        · have := Nat.mul_le_mul_right c.B (show lo / c.B + 1 ≤ j by omega)
          rw [Nat.succ_mul] at this
          omega
      refine ih (by omega) hhi gk' ghi _ hex ?_
      intro t
      show memset (allocBlock c (lo / c.B) s1).mem (scale c lo) (scale c k) v t = _
      unfold memset
      by_cases hin : scale c lo ≤ t ∧ t < scale c lo + scale c k
      · rw [if_pos hin, if_pos (by omega)]
      · rw [if_neg hin, alloc_mem hc]
        have hexs : (createStep c lo k v s1).ex (t / (c.B * c.m / c.g))
            = (s1.ex (t / (c.B * c.m / c.g)) || decide (t / (c.B * c.m / c.g) = lo / c.B)) :=
          alloc_ex _ _ _ _
        by_cases ht : t / (c.B * c.m / c.g) = lo / c.B
        · rw [hexs, ht, h2 t, ht]
          cases he : s1.ex (lo / c.B) with
          | true =>
            simp only [Bool.true_eq_false, if_false, Bool.true_or, and_true]
            by_cases hp : scale c a ≤ t ∧ t < scale c lo
            · rw [if_pos hp, if_pos (by omega)]
            · rw [if_neg hp, if_neg (show ¬ (scale c a ≤ t ∧ t < scale c (lo + k)) by omega)]
          | false =>
            have h3 := h1 (lo / c.B)
            rw [he] at h3
            have h4 : s.ex (lo / c.B) = false ∧ ¬ (a / c.B ≤ lo / c.B ∧ lo / c.B * c.B < lo ∧ a < lo) := by
              have := Bool.or_eq_false_iff.1 h3.symm
              exact ⟨this.1, of_decide_eq_false this.2⟩
            have hge : ¬ (scale c a ≤ t ∧ t < scale c lo) := by
              rcases Nat.lt_or_ge a lo with hal | hal
              · have hpq : lo = lo / c.B * c.B := by omega
                have : scale c lo ≤ t := by
                  rw [hpq, scale_blk hc, ← ht]
                  exact Nat.div_mul_le_self _ _
                omega
              · have : lo = a := by omega
                subst this; omega
            rw [if_pos ⟨rfl, rfl⟩, if_neg (by omega), if_pos ⟨h4.1, by simp⟩]
        · rw [if_neg (fun hcn => ht hcn.2), h2 t, hexs]
          have : decide (t / (c.B * c.m / c.g) = lo / c.B) = false := decide_eq_false ht
          rw [this, Bool.or_false]
          by_cases hp : scale c a ≤ t ∧ t < scale c lo
          · rw [if_pos hp, if_pos (by omega)]
          · rw [if_neg hp, if_neg (show ¬ (scale c a ≤ t ∧ t < scale c (lo + k)) by omega)]
  have hT := h.tiles hc
  have hlast : ∀ k, k * c.B < a + n ∧ a < a + n ↔ k ≤ (a + n - 1) / c.B := by
    intro k
    rw [Nat.le_div_iff_mul_le hB0]
    have := h.pos
    omega
  have hf := hfold _ _ _ hT (Nat.le_refl _) (Nat.le_refl _) h.ga (Nat.dvd_add h.ga h.gn) s
    (by intro k; simp)
    (by
      intro t
      rw [if_neg (by omega), if_neg]
      rintro ⟨x1, x2⟩
      rw [x1] at x2; cases x2)
  refine ⟨(pieces c.B a n).foldl (fun s q => createStep c q.1 q.2 v s) s, ?_, ?_, ?_⟩
  · have := create_fold hc v hT h.le s
    unfold create
    rw [if_neg hv, overflows_false h.pos h.le]
    exact this
  · intro k
    simp only [hf.1, ← hlast]
  · intro t
    simp only [hf.2, scale_add hc h.ga h.gn, hf.1, ← hlast]
    by_cases hin : scale c a ≤ t ∧ t < scale c a + scale c n
    · rw [if_pos hin, if_pos hin]
    · rw [if_neg hin, if_neg hin]
      cases s.ex (t / (c.B * c.m / c.g)) <;> simp

/-- C14: `umbra_shadow_set_range` gives every shadow byte of the range the value, changes nothing
else, and reports the number of shadow bytes of the range. -/
theorem C14_set_range {c : Cfg} (hc : c.Valid) (ht : c.onTouch = true) (hd : c.dflt ≠ 255)
    {a n : Nat} (h : Ok c a n) (v : UInt8) (s : St) :
    ∃ s', setRange c a n v s = .ok (s', scale c n) ∧
      ∀ t, view c s' t = if scale c a ≤ t ∧ t < scale c a + scale c n then v else view c s t := by
  obtain ⟨s', h1, -, h2⟩ := setRange_full hc ht hd h v s
  exact ⟨s', h1, h2⟩

/-- C14: `umbra_write_shadow_memory` stores the buffer, in order, over exactly the shadow bytes of
the range and reports their number. -/
theorem C14_write {c : Cfg} (hc : c.Valid) (ht : c.onTouch = true) (hd : c.dflt ≠ 255)
    {a n bufsz : Nat} (h : Ok c a n) (hbuf : scale c n ≤ bufsz) (buf : Nat → UInt8) (s : St) :
    ∃ s', write c a n bufsz (fun _ => buf) s = .ok (s', scale c n) ∧
      ∀ t, view c s' t = if scale c a ≤ t ∧ t < scale c a + scale c n then buf (t - scale c a)
        else view c s t := by
  have hsa := scale_add hc h.ga h.gn
  obtain ⟨s', x', e, -, hx, hv⟩ := fold_touch hc ht hd
    (fun (s : St) (d : Nat) start iter =>
      pure ({ s with mem := memput s.mem (scale c start) (scale c iter) (fun i => buf (d + i)) },
        d + scale c iter))
    (fun p s' x => a ≤ p ∧ scale c a + x = scale c p ∧
      ∀ t, view c s' t = if scale c a ≤ t ∧ t < scale c p then buf (t - scale c a)
        else view c s t)
    (H := a + n)
    (by
      intro p s s' x ⟨h0, h1, h2⟩ hm hv
      exact ⟨h0, h1, fun t => by rw [hv, h2]⟩)
    (by
      intro p k s1 x gp gk hk hb hn hle he ⟨h0, h1, h2⟩
      have := scale_add hc gp gk
      have := scale_le (c := c) h0
      refine ⟨_, _, rfl, by omega, by omega, fun t => ?_⟩
      rw [view_put hc gp gk hk hb he, h2]
      split
      · rw [if_pos (by omega), show x + (t - scale c p) = t - scale c a by omega]
      · split <;> split <;> first | rfl | (exfalso; omega))
    (h.tiles hc) h.ga (Nat.dvd_add h.ga h.gn) (Nat.le_refl _) h.le s 0
    ⟨Nat.le_refl _, by omega, fun t => by rw [if_neg (by omega)]⟩
  refine ⟨s', ?_, fun t => by rw [hv, hsa]⟩
  have hx' : x' = scale c n := by omega
  rw [← hx', ← e]
  unfold write
  rw [overflows_false h.pos h.le, if_neg (by omega)]
  rfl

/-- C14: `umbra_read_shadow_memory` returns the shadow bytes of exactly the range, in order, and
does not change what any later read sees. -/
theorem C14_read {c : Cfg} (hc : c.Valid) (ht : c.onTouch = true) (hd : c.dflt ≠ 255)
    {a n bufsz : Nat} (h : Ok c a n) (hbuf : scale c n ≤ bufsz) (s : St) :
    ∃ s', read c a n bufsz s =
        .ok (s', (List.range (scale c n)).map fun i => view c s (scale c a + i)) ∧
      ∀ t, view c s' t = view c s t := by
  have hsa := scale_add hc h.ga h.gn
  obtain ⟨s', x', e, -, z, hz, hx, hv⟩ := fold_touch hc ht hd
    (fun (s : St) (out : List UInt8) start iter =>
      pure (s, out ++ (List.range (scale c iter)).map fun i => s.mem (scale c start + i)))
    (fun p s' x => a ≤ p ∧ ∃ z, scale c a + z = scale c p ∧
      x = ((List.range z).map fun i => view c s (scale c a + i)) ∧
      ∀ t, view c s' t = view c s t)
    (H := a + n)
    (by
      intro p s s' x ⟨h0, z, h1, h2, h3⟩ hm hv
      exact ⟨h0, z, h1, h2, fun t => by rw [hv, h3]⟩)
    (by
      intro p k s1 x gp gk hk hb hn hle he ⟨h0, z, h1, h2, h3⟩
      have hpk := scale_add hc gp gk
      refine ⟨_, _, rfl, by omega, z + scale c k, by omega, ?_, h3⟩
      rw [h2, List.range_add, List.map_append, List.map_map]
      congr 1
      refine List.map_congr_left fun i hi => ?_
      have hi := List.mem_range.mp hi
      dsimp only [Function.comp]
      rw [← h3, view, piece_block hc gp gk hk hb (by omega) (by omega), he, if_pos rfl]
      congr 1; omega)
    (h.tiles hc) h.ga (Nat.dvd_add h.ga h.gn) (Nat.le_refl _) h.le s []
    ⟨Nat.le_refl _, 0, by omega, rfl, fun t => rfl⟩
  have hz' : z = scale c n := by omega
  refine ⟨s', ?_, hv⟩
  rw [← hz', ← hx, ← e]
  unfold read
  rw [overflows_false h.pos h.le, if_neg (by omega)]
  rfl

/-! ## Copy -/

/-- Writing from a live source piece inside one block. -/
theorem write_live {c : Cfg} (hc : c.Valid) (hg : 1 < c.g) (ht : c.onTouch = true)
    (hd : c.dflt ≠ 255) {p k d : Nat} (gp : c.g ∣ p) (gk : c.g ∣ k) (hk : 0 < k)
    (hb : p / c.B = (p + k - 1) / c.B) (gd : c.g ∣ d) (hdt : d + k ≤ top)
    (hdis : d ≤ p ∨ p + k ≤ d) (s : St) (he : s.ex (p / c.B) = true) :
    ∃ s', write c d k (scale c k) (fun s i => s.mem (scale c p + i)) s = .ok (s', scale c k) ∧
      ∀ t, view c s' t = if scale c d ≤ t ∧ t < scale c d + scale c k
        then view c s (scale c p + (t - scale c d)) else view c s t := by
  have h : Ok c d k := Ok.of_granule hc hg gd gk hk hdt
  have hsa := scale_add hc h.ga h.gn
  have hspk := scale_add hc gp gk
  obtain ⟨s', x', e, -, hx, -, hv⟩ := fold_touch hc ht hd
    (fun (s : St) (z : Nat) start iter =>
      pure ({ s with
        mem := memput s.mem (scale c start) (scale c iter) fun i => s.mem (scale c p + (z + i)) },
        z + scale c iter))
    (fun q s' x => d ≤ q ∧ scale c d + x = scale c q ∧ s'.ex (p / c.B) = true ∧
      ∀ t, view c s' t = if scale c d ≤ t ∧ t < scale c q
        then view c s (scale c p + (t - scale c d)) else view c s t)
    (H := d + k)
    (by
      intro q s s' x ⟨h0, h1, h2, h3⟩ hm hv
      exact ⟨h0, h1, hm _ h2, fun t => by rw [hv, h3]⟩)
    (by
      intro q k' s1 x gq gk' hk' hb' hn hle he' ⟨h0, h1, h2, h3⟩
      have hqk := scale_add hc gq gk'
      have hdq := scale_le (c := c) h0
      have hH := scale_le (c := c) hle
      refine ⟨_, _, rfl, by omega, by omega, h2, fun t => ?_⟩
      rw [view_put hc gq gk' hk' hb' he', h3]
      split
      · rename_i ht
        rw [if_pos (by omega)]
        have hpb : view c s1 (scale c p + (x + (t - scale c q))) =
            s1.mem (scale c p + (x + (t - scale c q))) := by
          rw [view, piece_block hc gp gk hk hb (by omega) (by omega), h2, if_pos rfl]
        have hsrc : scale c d ≤ scale c p ∨ scale c p + scale c k ≤ scale c d := by
          rcases hdis with h | h
          · exact .inl (scale_le h)
          · right; rw [← hspk]; exact scale_le h
        rw [← hpb, h3, if_neg (by omega)]
        congr 1; omega
      · split <;> split <;> first | rfl | (exfalso; omega))
    (h.tiles hc) h.ga (Nat.dvd_add h.ga h.gn) (Nat.le_refl _) h.le s 0
    ⟨Nat.le_refl _, by omega, he, fun t => by rw [if_neg (by omega)]⟩
  refine ⟨s', ?_, fun t => by rw [hv, hsa]⟩
  have hx' : x' = scale c k := by omega
  rw [← hx', ← e]
  unfold write
  rw [overflows_false h.pos h.le, if_neg (by omega)]
  rfl

/-- C14/C11: `umbra_shadow_copy_range` with down scaling, when the destination does not start
inside the source: the destination range gets the old shadow of the source range and nothing
else changes.

Full statement: the same for every `src` and `dst`.  It is false for `src < dst < src + n`, see
`C14_copy_overlap`. -/
theorem C14_copy_partial {c : Cfg} (hc : c.Valid) (hg : 1 < c.g) (ht : c.onTouch = true)
    (hd : c.dflt ≠ 255) {src dst n : Nat} (gs : c.g ∣ src) (gd : c.g ∣ dst) (gn : c.g ∣ n)
    (hn : 0 < n) (hs : src + n ≤ top) (hdt : dst + n ≤ top)
    (hdis : dst ≤ src ∨ src + n ≤ dst) (s : St) :
    ∃ s', copy c src dst n s = .ok (s', scale c n) ∧
      ∀ t, view c s' t = if scale c dst ≤ t ∧ t < scale c dst + scale c n
        then view c s (scale c src + (t - scale c dst)) else view c s t := by
  have h : Ok c src n := Ok.of_granule hc hg gs gn hn hs
  have hsa := scale_add hc gs gn
  obtain ⟨s', ⟨d', x'⟩, e, h0, hd', hx, hv⟩ := fold_touch hc ht hd
    (fun (s : St) (dt : Nat × Nat) start iter =>
      write c dt.1 iter (scale c iter) (fun s i => s.mem (scale c start + i)) s >>= fun sw =>
        pure (sw.1, dt.1 + iter, dt.2 + sw.2))
    (fun p s' x => src ≤ p ∧ x.1 = dst + (p - src) ∧ scale c src + x.2 = scale c p ∧
      ∀ t, view c s' t = if scale c dst ≤ t ∧ t < scale c dst + x.2
        then view c s (scale c src + (t - scale c dst)) else view c s t)
    (H := src + n)
    (by
      intro p s s' x ⟨h0, h1, h2, h3⟩ hm hv
      exact ⟨h0, h1, h2, fun t => by rw [hv, h3]⟩)
    (by
      intro p k s1 x gp gk hk hb hne hle he ⟨h0, h1, h2, h3⟩
      have gps : c.g ∣ p - src := Nat.dvd_sub gp gs
      have hpk := scale_add hc gp gk
      have hps : scale c p = scale c src + scale c (p - src) := by
        rw [← scale_add hc gs gps]; congr 1; omega
      have hds := scale_add hc gd gps
      have gx : c.g ∣ x.1 := by rw [h1]; exact Nat.dvd_add gd gps
      have hH := scale_le (c := c) hle
      obtain ⟨s2, e2, hv2⟩ := write_live hc hg ht hd gp gk hk hb gx (by omega) (by omega) s1 he
      refine ⟨s2, (x.1 + k, x.2 + scale c k), ?_, by omega, by omega, by omega, fun t => ?_⟩
      · rw [e2]; rfl
      · rw [hv2, h1, hds, h3, h3]
        have hsrc : scale c dst ≤ scale c src ∨ scale c src + scale c n ≤ scale c dst := by
          rcases hdis with h | h
          · exact .inl (scale_le h)
          · right; rw [← hsa]; exact scale_le h
        split
        · rw [if_neg (by omega), if_pos (by omega)]
          congr 1; omega
        · split <;> split <;> first | rfl | (exfalso; omega))
    (h.tiles hc) h.ga (Nat.dvd_add h.ga h.gn) (Nat.le_refl _) h.le s (dst, 0)
    ⟨Nat.le_refl _, by simp, by omega, fun t => by rw [if_neg (by omega)]⟩
  have hx' : x' = scale c n := by dsimp only at hx; omega
  subst hx'
  refine ⟨s', ?_, hv⟩
  unfold copy
  rw [overflows_false hn hs, overflows_false hn hdt]
  have hno : ¬ (src < dst ∧ src + (n - 1) ≥ dst) := by omega
  simp only [hno, if_false, Bool.false_eq_true, or_self]
  simp only [bind, Except.bind, pure, Except.pure] at e ⊢
  rw [e]

/-! ## Witnesses -/

/-- A small down-scaling map like Dr. Memory's (4 application bytes per shadow byte), with
16-byte blocks. -/
def wDown : Cfg := { B := 16, m := 1, g := 4, dflt := 0x55, onTouch := true }

/-- A one-to-one map with 16-byte blocks. -/
def wSame : Cfg := { B := 16, m := 1, g := 1, dflt := 0x55, onTouch := true }

theorem wDown_valid : wDown.Valid := ⟨by decide, by decide, by decide, by decide, by decide⟩
theorem wSame_valid : wSame.Valid := ⟨by decide, by decide, by decide, by decide, by decide⟩

/-- Shadow with every block present, holding its index. -/
def wSt : St := { ex := fun _ => true, mem := fun t => UInt8.ofNat t }

/-- Empty shadow. -/
def wEmpty : St := { ex := fun _ => false, mem := fun _ => 0 }

example : Ok wDown 8 40 := ⟨by decide, by decide, by decide, by decide, by decide⟩
example : Ok wSame 3 31 := ⟨by decide, by decide, by decide, by decide, by decide⟩

/-- C14 fails for a range whose last byte is the first byte of a block (only possible without
down scaling): `umbra_shadow_set_range` of one byte at a block boundary succeeds and sets nothing,
because the loop test is `app_blk_base < app_src_end` with a closed end
(umbra/umbra_private.h:114). -/
theorem C14_last_byte_dropped :
    ∃ s', setRange wSame 16 1 7 wSt = .ok (s', 0) ∧ view wSame s' 16 = 16 :=
  ⟨wSt, by rfl, by decide⟩

/-- The same for a longer range: the byte at the start of the next block is left out. -/
theorem C14_last_byte_dropped_long :
    ∃ s' n, setRange wSame 8 9 7 wSt = .ok (s', n) ∧ view wSame s' 15 = 7 ∧
      view wSame s' 16 = 16 :=
  ⟨_, _, rfl, by decide, by decide⟩

/-- C11/C14 fail for a copy whose destination starts inside the source: the saved tail is written
at `app_dst + (app_dst - app_src)` after the loop advanced `app_dst`
(umbra/umbra_64.c:1186-1194).  Moving [0,8) to [4,12) leaves the shadow of [8,12) unchanged and
overwrites the shadow of [16,20) instead. -/
theorem C14_copy_overlap :
    ∃ s' n, copy wDown 0 4 8 wSt = .ok (s', n) ∧ view wDown s' 2 = view wDown wSt 2 ∧
      view wDown wSt 1 ≠ view wDown wSt 2 ∧ view wDown s' 4 ≠ view wDown wSt 4 :=
  ⟨_, _, rfl, by decide, by decide, by decide⟩

/-- A map whose default value is 0xff can never be touched: creation rejects that value
(umbra/umbra_64.c:946). -/
theorem C14_default_ff (c : Cfg) (h : c.dflt = 255) (ht : c.onTouch = true) (start : Nat) (s : St)
    (he : s.ex (start / c.B) = false) : touch c start s = .error .featureNotAvailable := by
  simp [touch, touchWith, he, ht, h, create]

/-- Block 0 missing, block 1 present and filled. -/
def wHalf : St := ⟨fun k => k == 1, fun i => UInt8.ofNat i⟩

/-- C14 (finding): handling a fault on the last shadow byte of a missing block resets shadow in the
*next* block, which existed and held other values: the handler always creates the shadow of eight
application bytes, which reach into the next block when the scale is 4-to-1
(umbra/umbra_64.c:1590).  A read of shadow memory thereby changes the state of an unrelated
dword. -/
theorem C14_fault_clobbers_next_block :
    ∃ s', handleFault wDown 12 wHalf = .ok s' ∧ view wDown wHalf 4 = 4 ∧
      view wDown s' 4 = wDown.dflt ∧ wDown.dflt ≠ 4 :=
  ⟨_, rfl, by decide, by decide, by decide⟩

end Verif.Umbra
