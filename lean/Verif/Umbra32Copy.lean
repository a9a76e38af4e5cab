import Verif.Umbra32Ops
/-!
# Copying and searching on the 32-bit shadow table
-/
namespace Verif.Umbra32

/-! ## Copy -/

/-- The source of a copy: block `bs` of entry `ks` in `m0`.  Later maps keep the bytes of `bs` in reach: the
entry still points at it, or it is a shared block, whose bytes never change. -/
structure Src (c : Cfg) (m0 m : Map) (ks bs : Nat) : Prop where
  live : bs ∈ m.live
  at' : getBlock c m ks = bs ∨ Shared c m bs
  mem : Shared c m bs → ∀ i, i < S c → m.mem (bs + i) = m0.mem (bs + i)

theorem Src.ext {c : Cfg} {m0 m m' : Map} {ks bs k : Nat} (h : Src c m0 m ks bs) (he : Ext c m m' k) :
    Src c m0 m' ks bs := by
  refine ⟨he.live _ h.live, ?_, ?_⟩
  · by_cases hs : Shared c m bs
    · exact Or.inr ((he.shared _).2 hs)
    · left
      have h1 := h.at'.resolve_right hs
      by_cases hk : ks = k
      · subst hk
        rw [he.priv (h1 ▸ hs), h1]
      · rw [he.blk _ hk, h1]
  · intro hs i hi
    have hs' := (he.shared _).1 hs
    rw [he.mem _ _ h.live hs' hi, h.mem hs' i hi]

/-- What is read through a pointer into the source block is what the user saw there, as long as the index
has not been overwritten. -/
theorem Src.read {c : Cfg} (hc : c.Valid) {m0 m : Map} {ks bs x : Nat} (h : Src c m0 m ks bs)
    (h0 : getBlock c m0 ks = bs) (hx : x < S c) (hv0 : (view c m0 (ks * S c + x)).isSome = true)
    (hsame : view c m (ks * S c + x) = view c m0 (ks * S c + x)) :
    m.mem (bs + x) = (view c m0 (ks * S c + x)).getD 0 := by
  obtain ⟨e1, e2⟩ := blk_add hc (k := ks) hx
  have hv1 : view c m0 (ks * S c + x) = some (m0.mem (bs + x)) := by
    rw [view, e1, e2, h0] at hv0 ⊢
    split at hv0
    · simp at hv0
    · next hn => rw [if_neg hn]
  rcases h.at' with h1 | h1
  · rw [← hsame]
    have : view c m (ks * S c + x) ≠ none := by rw [hsame, hv1]; simp
    rw [view, e1, e2, h1] at this ⊢
    split
    · next hn => rw [if_pos hn] at this; exact absurd rfl this
    · rfl
  · rw [h.mem h1 x hx, hv1]; rfl

/-- The loop of a write whose buffer is the shadow of a piece (`p`, `len`) of the same map. -/
theorem liveLoop {c : Cfg} (hc : c.Valid) {al : Alloc} (ha : al.Good c) {m0 : Map} {p len d0 : Nat}
    (P : Piece c p len)
    (hsrc : (view c m0 (nom c p)).isSome = true)
    (hdst : ∀ i, i < nom c len → (view c m0 (nom c d0 + i)).isSome = true)
    (hdis : nom c d0 ≤ nom c p ∨ nom c p + nom c len ≤ nom c d0)
    {bs : Nat} (hbs : getBlock c m0 (p / B) = bs)
    {l : List (Nat × Nat)} {lo hi : Nat} (ht : Umbra.Tiles B l lo hi) :
    c.g ∣ lo → c.g ∣ hi → hi ≤ W → nom c d0 ≤ nom c lo → nom c hi ≤ nom c d0 + nom c len →
    ∀ m, Inv c m → Src c m0 m (p / B) bs →
    view c m = upd (view c m0) (nom c d0) (nom c lo - nom c d0)
      (fun i => (view c m0 (nom c p + i)).getD 0) →
    let r := loop (fun ((m, z) : Map × Nat) start iter =>
      match putPiece c al m start iter (fun m i => m.mem (bs + scale c (p % B) + (z + i))) with
      | (m, st) => ((m, z + scale c iter), st)) l (m, nom c lo - nom c d0)
    r.2 = .oom ∨ (r.2 = .ok ∧ Inv c r.1.1 ∧ r.1.2 = nom c hi - nom c d0 ∧
      view c r.1.1 = upd (view c m0) (nom c d0) (nom c hi - nom c d0)
        (fun i => (view c m0 (nom c p + i)).getD 0)) := by
  obtain ⟨a1, a2, a3, a4, a5⟩ := P.facts hc
  induction ht with
  | nil x =>
    intro _ _ _ _ _ m hi _ hv
    exact Or.inr ⟨rfl, hi, rfl, hv⟩
  | cons lo k hi l hk hb _ he hl ih =>
    intro glo ghi hW hdl hdh m hinv hs hv
    have hle := hl.le
    obtain ⟨Q, ghk⟩ := tile_piece hc glo ghi hk hb he hle hW
    obtain ⟨n1, n2, n3, n4, n5⟩ := Q.facts hc
    have hmono : nom c (lo + k) ≤ nom c hi := Nat.div_le_div_right (Nat.mul_le_mul_right _ hle)
    dsimp only
    rw [loop]
    have hv' : (view c m (nom c lo)).isSome = true := by
      have := hdst (nom c lo - nom c d0) (by omega)
      rw [show nom c d0 + (nom c lo - nom c d0) = nom c lo by omega] at this
      rw [hv, upd, if_neg (by omega)]; exact this
    generalize hf : (fun (m : Map) (i : Nat) =>
      m.mem (bs + scale c (p % B) + (nom c lo - nom c d0 + i))) = f
    rcases putPiece_spec hc ha hinv Q f hv' with h | ⟨p1, p2, p3, m1, q1, q2, q3, q4⟩
    · left
      generalize putPiece c al m lo k f = r at *
      obtain ⟨m1, st⟩ := r
      dsimp only at h
      subst h
      rfl
    · -- the bytes read
      have hread : ∀ i, i < scale c k → f m1 i =
          (view c m0 (nom c p + (nom c lo - nom c d0 + i))).getD 0 := by
        intro i hi'
        have hx : scale c (p % B) + (nom c lo - nom c d0 + i) < S c := by omega
        have hidx : nom c p + (nom c lo - nom c d0 + i) =
            p / B * S c + (scale c (p % B) + (nom c lo - nom c d0 + i)) := by omega
        have := (hs.ext q2).read hc hbs hx (by
          rw [← hidx, P.some_iff hc (by omega)]; exact hsrc) (by
          rw [q3, hv, ← hidx, upd, if_neg (by omega)])
        rw [← hidx] at this
        rw [← this, ← hf]
        dsimp only
        rw [Nat.add_assoc]
      generalize putPiece c al m lo k f = r at *
      obtain ⟨m2, st⟩ := r
      dsimp only at *
      subst p1
      dsimp only
      have hz : nom c lo - nom c d0 + scale c k = nom c (lo + k) - nom c d0 := by omega
      rw [hz]
      apply ih ghk ghi hW (by omega) hdh m2 p2 (hs.ext p3)
      rw [q4, hv]
      funext t
      simp only [upd]
      by_cases h1 : nom c lo ≤ t ∧ t < nom c lo + nom c k
      · rw [if_pos h1, if_pos (by omega), hread _ (by omega)]
        congr 3
        omega
      · rw [if_neg h1]
        by_cases h2 : nom c d0 ≤ t ∧ t < nom c d0 + (nom c lo - nom c d0)
        · rw [if_pos h2, if_pos (by omega)]
        · rw [if_neg h2, if_neg (by omega)]

theorem Ok.of_granule {c : Cfg} (hc : c.Valid) (hg : 1 < c.g) {a n : Nat} (ga : c.g ∣ a) (gn : c.g ∣ n)
    (pos : 0 < n) (le : a + n ≤ W) : Ok c a n := by
  have := (Umbra.Ok.of_granule (u_valid hc) hg ga gn pos (W_top le)).last
  exact ⟨ga, gn, pos, le, this⟩

theorem nom_add {c : Cfg} (hc : c.Valid) {a n : Nat} (gs : c.g ∣ a) (gi : c.g ∣ n) :
    nom c (a + n) = nom c a + nom c n := by
  simp only [nom]
  have hsc := hc.sc
  rcases hsc with ⟨e1, e2 | e2 | e2 | e2⟩ | ⟨e1, e2⟩ <;>
    rw [e2] at gs gi <;> rw [e1, e2] <;> omega

theorem nom_le {c : Cfg} {a b : Nat} (h : a ≤ b) : nom c a ≤ nom c b :=
  Nat.div_le_div_right (Nat.mul_le_mul_right _ h)

/-- The loop over the source pieces. -/
theorem copyLoop {c : Cfg} (hc : c.Valid) (hg : 1 < c.g) {al : Alloc} (ha : al.Good c) {m0 : Map}
    {src dst n : Nat} (gs : c.g ∣ src) (gd : c.g ∣ dst) (gn : c.g ∣ n) (hdW : dst + n ≤ W)
    (hsrc : ∀ i, i < nom c n → (view c m0 (nom c src + i)).isSome = true)
    (hdst : ∀ i, i < nom c n → (view c m0 (nom c dst + i)).isSome = true)
    (hdis : dst ≤ src ∨ src + n ≤ dst)
    {l : List (Nat × Nat)} {lo hi : Nat} (ht : Umbra.Tiles B l lo hi) :
    c.g ∣ lo → hi = src + n → hi ≤ W → src ≤ lo →
    ∀ m tot, Inv c m →
    view c m = upd (view c m0) (nom c dst) (nom c lo - nom c src)
      (fun i => (view c m0 (nom c src + i)).getD 0) →
    let r := loop (fun ((m, d, tot) : Map × Nat × Nat) start iter =>
        if isDefault c m (appToShadow c m start) then ((m, d, tot), .invalidParameter)
        else
          let p := appToShadow c m start
          match write c al m d iter (scale c iter) (fun m i => m.mem (p + i)) with
          | ((m, w), .ok) => ((m, d + iter, tot + w), .ok)
          | ((m, w), st) => ((m, d, tot + w), st)) l (m, dst + (lo - src), tot)
    r.2 = .oom ∨ (r.2 = .ok ∧ Inv c r.1.1 ∧
      (r.1.2.2 = tot + (nom c hi - nom c lo) ∧ r.1.2.1 = dst + n) ∧
      view c r.1.1 = upd (view c m0) (nom c dst) (nom c n)
        (fun i => (view c m0 (nom c src + i)).getD 0)) := by
  have hsn := nom_add hc gs gn
  have hdn := nom_add hc gd gn
  have hdis' : nom c dst ≤ nom c src ∨ nom c src + nom c n ≤ nom c dst := by
    rcases hdis with h | h
    · exact Or.inl (nom_le h)
    · right; rw [← hsn]; exact nom_le h
  induction ht with
  | nil x =>
    intro _ he _ _ m tot hi hv
    refine Or.inr ⟨rfl, hi, ⟨by simp [loop], by simp only [loop]; omega⟩, ?_⟩
    simp only [loop]
    rw [hv, he, hsn, Nat.add_sub_cancel_left]
  | cons lo k hi l hk hb _ he hl ih =>
    intro glo hhi hW hsl m tot hinv hv
    have hle := hl.le
    have ghi : c.g ∣ hi := by rw [hhi]; exact Nat.dvd_add gs gn
    obtain ⟨P, ghk⟩ := tile_piece hc glo ghi hk hb he hle hW
    obtain ⟨a1, a2, a3, a4, a5⟩ := P.facts hc
    have hmono : nom c (lo + k) ≤ nom c hi := nom_le hle
    have hsl' : nom c src ≤ nom c lo := nom_le hsl
    have hhin : nom c hi = nom c src + nom c n := by rw [hhi, hsn]
    have gls : c.g ∣ lo - src := Nat.dvd_sub glo gs
    have gd' : c.g ∣ dst + (lo - src) := Nat.dvd_add gd gls
    have hlos : nom c lo = nom c src + nom c (lo - src) := by
      rw [← nom_add hc gs gls]; congr 1; omega
    have hd' : nom c (dst + (lo - src)) = nom c dst + (nom c lo - nom c src) := by
      rw [nom_add hc gd gls]; omega
    have hok : Ok c (dst + (lo - src)) k := Ok.of_granule hc hg gd' P.gi hk (by omega)
    have hdk := hok.nom_add hc
    dsimp only
    rw [loop]
    -- the source piece is present and not yet overwritten
    have hsv : ∀ i, i < nom c k → view c m (nom c lo + i) = view c m0 (nom c lo + i) := by
      intro i hi'
      rw [hv, upd, if_neg (by omega)]
    have hsome : ∀ i, i < nom c k → (view c m0 (nom c lo + i)).isSome = true := by
      intro i hi'
      have := hsrc (nom c lo - nom c src + i) (by omega)
      rwa [show nom c src + (nom c lo - nom c src + i) = nom c lo + i by omega] at this
    have h0v : (view c m (nom c lo)).isSome = true := by
      have h1 := hsv 0 (by omega)
      have h2 := hsome 0 (by omega)
      rw [Nat.add_zero] at h1 h2
      rw [h1]; exact h2
    have e2 := (P.idx hc a4).1
    rw [Nat.add_zero] at e2
    have hnd : ¬ isDefault c m (appToShadow c m lo) = true := by
      rw [appToShadow_eq hc hinv, isDefault_iff hc hinv (hinv.tbl _) (scale_off_lt hc _)]
      intro hd
      have : view c m (nom c lo) = none := by rw [view_none_iff, e2]; exact hd
      rw [this] at h0v; simp at h0v
    dsimp only
    rw [if_neg hnd, appToShadow_eq hc hinv]
    have hlive := liveLoop hc ha (m0 := m) (d0 := dst + (lo - src)) P h0v (by
        intro i hi'
        rw [hd', hv]
        have := hdst (nom c lo - nom c src + i) (by omega)
        rw [show nom c dst + (nom c lo - nom c src) + i = nom c dst + (nom c lo - nom c src + i) by omega,
          upd]
        split
        · rfl
        · exact this) (by omega) rfl hok.tiles hok.ga (Nat.dvd_add hok.ga hok.gn) hok.le
        (Nat.le_refl _) (by omega) m hinv ⟨hinv.tbl _, Or.inl rfl, fun _ _ _ => rfl⟩ (by
        rw [Nat.sub_self]; funext t; rw [upd, if_neg (by omega)])
    dsimp only at hlive
    rw [write, if_neg (by omega), overflows_false hok.pos hok.le, if_neg (by simp)]
    rw [Nat.sub_self] at hlive
    rcases hlive with h | ⟨w1, w2, w3, w4⟩
    · left
      generalize loop (fun x start iter =>
        match x with
        | (m_1, z) =>
          match putPiece c al m_1 start iter fun m_2 i =>
            m_2.mem (getBlock c m (lo / B) + scale c (lo % B) + (z + i)) with
          | (m, st) => ((m, z + scale c iter), st)) (pieces (dst + (lo - src)) k) (m, 0) = r at *
      obtain ⟨⟨m1, z⟩, st⟩ := r
      dsimp only at h
      subst h
      rfl
    · generalize loop (fun x start iter =>
        match x with
        | (m_1, z) =>
          match putPiece c al m_1 start iter fun m_2 i =>
            m_2.mem (getBlock c m (lo / B) + scale c (lo % B) + (z + i)) with
          | (m, st) => ((m, z + scale c iter), st)) (pieces (dst + (lo - src)) k) (m, 0) = r at *
      obtain ⟨⟨m1, z⟩, st⟩ := r
      dsimp only at *
      subst w1
      dsimp only
      have hstep : dst + (lo - src) + k = dst + (lo + k - src) := by omega
      rw [hstep]
      have hz : z = nom c k := by omega
      subst hz
      have := ih ghk hhi hW (by omega) m1 (tot + nom c k) w2 (by
        rw [w4, hv]
        funext t
        simp only [upd]
        by_cases h1 : nom c (dst + (lo - src)) ≤ t ∧ t < nom c (dst + (lo - src)) +
            (nom c (dst + (lo - src) + k) - nom c (dst + (lo - src)))
        · rw [if_pos h1, if_neg (by omega), if_pos (by omega)]
          congr 3
          omega
        · rw [if_neg h1]
          by_cases h2 : nom c dst ≤ t ∧ t < nom c dst + (nom c lo - nom c src)
          · rw [if_pos h2, if_pos (by omega)]
          · rw [if_neg h2, if_neg (by omega)])
      rcases this with h | ⟨v1, v2, v3, v4⟩
      · exact Or.inl h
      · exact Or.inr ⟨v1, v2, ⟨by omega, v3.2⟩, v4⟩

end Verif.Umbra32
