import Mathlib.Tactic.ByContra
import Mathlib.Data.List.Pairwise
import Verif.AllocOps

/-!
# Freeing: the delay list and the free lists
-/
namespace Verif.Al

variable {c : Cfg} {R : Nat → Nat} {s : St} {G G1 G2 : List (Arena × List Ck)} {a : Arena} {l r : List Ck} {k : Ck}
  {n x : Nat}

/-- Between calls every chunk is in use, quarantined or on a free list. -/
def Calm (C : List Ck) : Prop := ∀ k ∈ C, (∃ r, k.st = .live r) ∨ k.st = .delay ∨ k.st = .free

theorem Calm.quiet {C : List Ck} (h : Calm C) : Quiet C := by
  intro k hk
  rcases h k hk with ⟨r, h⟩ | h | h <;> rw [h] <;> exact ⟨by simp, by simp⟩

theorem Calm.append {C D : List Ck} : Calm (C ++ D) ↔ Calm C ∧ Calm D := by
  simp only [Calm, List.mem_append]
  exact ⟨fun h => ⟨fun k hk => h k (Or.inl hk), fun k hk => h k (Or.inr hk)⟩,
    fun h k hk => hk.elim (h.1 k) (h.2 k)⟩

/-- Chunks in use, with the sizes asked for. -/
def lives (C : List Ck) : List (Nat × Nat) := C.filterMap fun k => match k.st with
  | .live r => some (k.p, r)
  | _ => none

theorem lives_append (C D : List Ck) : lives (C ++ D) = lives C ++ lives D := by simp [lives]

theorem lives_solids (C : List Ck) : lives (solids C) = lives C := by
  induction C with
  | nil => rfl
  | cons k C ih =>
    unfold solids lives at *
    cases hk : k.st <;> simp [hk, ih]

theorem dl_solids (C : List Ck) : dl (solids C) = dl C := by
  unfold solids dl
  rw [List.filter_filter]
  congr 1
  apply List.filter_congr
  intro k _
  cases hk : k.st <;> simp

theorem mem_solids {C : List Ck} {k : Ck} :
    k ∈ solids C ↔ k ∈ C ∧ k.st ≠ .free ∧ ∀ x, k.st ≠ .held x := by
  unfold solids
  rw [List.mem_filter]
  cases hk : k.st <;> simp

theorem calm_of_solids {C : List Ck} (h : Calm (solids C)) (h' : NoHeld C) : Calm C := by
  intro k hk
  by_cases hf : k.st = .free
  · exact Or.inr (Or.inr hf)
  · exact h k (mem_solids.2 ⟨hk, hf, h' k hk⟩)

theorem Calm.solids {C : List Ck} (h : Calm C) : Calm (solids C) :=
  fun k hk => h k (mem_solids.1 hk).1

theorem Pre.delay_split (hp : Pre c R s G) {p : Nat} (h : p ∈ s.delay) :
    ∃ G1 a l k r G2, G = G1 ++ (a, l ++ k :: r) :: G2 ∧ k.p = p ∧ k.st = .delay := by
  rw [hp.delay.mem_iff] at h
  obtain ⟨k, hk, hkp⟩ := List.mem_map.1 h
  obtain ⟨h1, h2⟩ := List.mem_filter.1 hk
  obtain ⟨G1, a, l, r, G2, hG⟩ := chunk_split h1
  exact ⟨G1, a, l, k, r, G2, hG, hkp, by simpa using h2⟩

/-- One chunk and its header change; the neighbours do not notice. -/
theorem Pre.restate {k' : Ck} {h' : Hdr} {s' : St} (hp : Pre c R s (G1 ++ (a, l ++ k :: r) :: G2))
    (hhdr : s'.hdr = (s.put k.p h').hdr) (har : s'.arenas = s.arenas) (hmaps : s'.maps = s.maps)
    (hkp : k'.p = k.p) (hks : k'.size = k.size) (hkf : k'.fsz = k.fsz)
    (hok : HdrOk h' k' (lastFsz l)) (hfr : k'.st = .free → lastFsz l = 0)
    (hfree : ∀ b X, (s.free b).Perm (fr c b (k :: r) ++ X) → (s'.free b).Perm (fr c b (k' :: r) ++ X))
    (hdelay : ∀ X, s.delay.Perm (dl (k :: r) ++ X) → s'.delay.Perm (dl (k' :: r) ++ X))
    (hdc : s'.dChunks + (dl (k :: r)).length = s.dChunks + (dl (k' :: r)).length)
    (hdb : s'.dBytes + db (k :: r) = s.dBytes + db (k' :: r))
    (hdz : k'.st = .delay → k.st = .delay ∨ R k.p = k.size := by intro h; first | cases h | grind) :
    Pre c R s' (G1 ++ (a, l ++ k' :: r) :: G2) := by
  obtain ⟨h, ha⟩ := hp.at
  have hA := A_pos c
  have hmin := ha.min
  have hhi := ha.hi
  have hcm := ha.commit
  refine hp.edit ha.left ?_ (by rw [har, hp.arenas]; simp) hp.geo_at rfl rfl (Nat.le_refl _) hmaps
    ?_ hfree hdelay hdc hdb ?_ ?_
  rotate_right
  · intro hd k1 hk1 hs1
    rcases List.mem_cons.1 hk1 with rfl | hk1
    · rw [hkp, hks]
      rcases hdz hs1 with h | h
      · exact hd k (List.mem_cons_self ..) h
      · exact h
    · exact hd k1 (List.mem_cons_of_mem _ hk1) hs1
  · refine ⟨hkp, by rw [hks]; exact hmin, by rw [hks]; exact ha.dvd, ⟨h', ?_, hok⟩, hfr, ?_⟩
    · rw [hhdr, put_hdr, if_pos rfl]
    · rw [hkf, hks]
      refine ha.right.frame fun y hy _ => ?_
      rw [hhdr, put_hdr, if_neg (by omega)]
  · intro p hpn
    rw [hhdr, put_hdr, if_neg (by omega)]
  · intro p h'' g1 g2 g3 g4
    by_cases hpk : p = k.p
    · exact ⟨k', List.mem_cons_self .., by rw [hkp, hpk]⟩
    · rw [hhdr, put_hdr, if_neg hpk] at g3
      obtain ⟨k1, hk1, hkp1, -⟩ := hp.stale_in ha.left g1 g2 g3 g4
      rcases List.mem_cons.1 hk1 with rfl | hk1
      · exact absurd hkp1.symm hpk
      · exact ⟨k1, List.mem_cons_of_mem _ hk1, hkp1⟩

theorem Calm.mid {G1 G2 : List (Arena × List Ck)} {a : Arena} {l r : List Ck} {k : Ck}
    (h : Calm (chunks (G1 ++ (a, l ++ k :: r) :: G2))) :
    Calm (chunks G1) ∧ Calm l ∧ Calm r ∧ Calm (chunks G2) := by
  rw [chunks_mid, Calm.append, Calm.append, Calm.append] at h
  exact ⟨h.1, h.2.1.1, fun k' hk' => h.2.1.2 k' (List.mem_cons_of_mem _ hk'), h.2.2⟩

/-- The quarantine with the sizes of its chunks. -/
def quar (R : Nat → Nat) (s : St) : List (Nat × Nat) := s.delay.map fun p => (p, R p)

/-- A queue shortened from the front until it has fewer than `n` entries and fewer than `m` bytes. -/
def trim (n m : Nat) : List (Nat × Nat) → List (Nat × Nat)
  | [] => []
  | x :: q => if n ≤ (x :: q).length ∨ m ≤ ((x :: q).map Prod.snd).sum then trim n m q else x :: q

theorem Pre.dBytes_eq (hp : Pre c R s G) : s.dBytes = ((quar R s).map Prod.snd).sum := by
  have h1 : (quar R s).map Prod.snd = s.delay.map R := by simp [quar]
  rw [h1, hp.dBytes, (hp.delay.map R).sum_eq]
  unfold db dl
  rw [List.map_map]
  congr 1
  apply List.map_congr_left
  intro k hk
  obtain ⟨h1, h2⟩ := List.mem_filter.1 hk
  exact (hp.dz k h1 (by simpa using h2)).symm

theorem Pre.dChunks_eq (hp : Pre c R s G) : s.dChunks = (quar R s).length := by
  rw [hp.dChunks, ← hp.delay.length_eq]; simp [quar]

theorem Pre.full_eq (hp : Pre c R s G) : full c s = true ↔
    c.delayFrees ≤ (quar R s).length ∨ c.delayMax ≤ ((quar R s).map Prod.snd).sum := by
  unfold full
  rw [hp.dBytes_eq, hp.dChunks_eq]
  simp

/-- Only the sizes recorded for large blocks and for the quarantine matter. -/
theorem Pre.reR {R' : Nat → Nat} (hp : Pre c R s G) (h1 : ∀ m ∈ s.maps, R' m.ptr = R m.ptr)
    (h2 : Dz R' (chunks G)) : Pre c R' s G := by
  refine { hp with maps := fun m hm => ?_, dz := h2 }
  have h := hp.maps m hm
  exact { h with hdr := by rw [h1 m hm]; exact h.hdr }

/-- Leaving the delay list: exactly the oldest chunk leaves. -/
theorem shift_spec (hc : CfgOk c) (hp : Pre c R s G) (hcalm : Calm (chunks G)) {p : Nat}
    {rest : List Nat} (hd : s.delay = p :: rest) (os : Os) :
    ∃ s' G', shift c os 0 s p rest = some s' ∧ Pre c R s' G' ∧ Calm (chunks G') ∧
      s'.mem = s.mem ∧ s'.maps = s.maps ∧ s'.delay = rest ∧
      lives (chunks G') = lives (chunks G) ∧
      ∃ k ∈ chunks G, k.p = p ∧ k.st = .delay ∧ s'.dBytes + k.size = s.dBytes := by
  obtain ⟨G1, a, l, k, r, G2, rfl, rfl, hkd⟩ := hp.delay_split (p := p) (by rw [hd]; simp)
  obtain ⟨h, ha⟩ := hp.at
  have hdl : dl (k :: r) = k.p :: dl r := by simp [dl, hkd]
  have hdb : db (k :: r) = k.size + db r := by simp [db, hkd]
  have hchunks := hp.dChunks
  have hbytes := hp.dBytes
  rw [chunks_mid] at hchunks hbytes
  simp only [dl_append, db_append, hdl, hdb, List.length_append, List.length_cons] at hchunks hbytes
  have hP : Pre c R { s.put k.p { h with delay := false } with
      delay := rest, dChunks := s.dChunks - 1, dBytes := s.dBytes - k.size }
      (G1 ++ (a, l ++ { k with st := .held 0 } :: r) :: G2) := by
    refine hp.restate (h' := { h with delay := false }) rfl rfl rfl rfl rfl ?_ ?_ (fun h => by cases h)
      ?_ ?_ ?_ ?_
    · unfold Ck.fsz; rw [hkd]
    · exact ⟨ha.ok.size, by have := ha.ok.freed; rw [hkd] at this; exact this, rfl, ha.ok.mmap,
        ha.ok.prevFree, ha.ok.prevSz, fun r hr => by cases hr⟩
    · intro b X hX
      rw [fr_cons_not (by rw [hkd]; intro h; cases h)] at hX
      rw [fr_cons_not (by intro h; cases h)]; exact hX
    · intro X hX
      rw [hd, hdl] at hX
      rw [dl_cons_not (by intro h; cases h)]
      exact List.Perm.cons_inv hX
    · rw [hdl, dl_cons_not (k := { k with st := .held 0 }) (by intro h; cases h)]
      simp only [List.length_cons]; omega
    · rw [hdb, db_cons_not (k := { k with st := .held 0 }) (by intro h; cases h)]
      simp only; omega
  obtain ⟨c1, c2, c3, c4⟩ := hcalm.mid
  obtain ⟨s', G', e, S, P, nh, so⟩ := coalesceAdd_spec hc hP (Nat.zero_le _) rfl c2.quiet.noHeld
    c3.quiet c1.quiet.noHeld c4.quiet.noHeld os
  have hso : solids (chunks G') = solids (chunks G1) ++ (solids l ++ solids r ++ solids (chunks G2)) := by
    rw [so, chunks_mid]
    simp only [solids_append]
    rw [solids_held (x := 0) rfl]
  refine ⟨s', G', ?_, P, ?_, S.mem, S.maps, S.delay, ?_, k, by simp [chunks_mid], rfl, hkd, ?_⟩
  · unfold shift
    simp only [ha.hdr]
    rw [← ha.ok.size] at e
    exact e
  · refine calm_of_solids ?_ nh
    rw [hso, Calm.append, Calm.append, Calm.append]
    exact ⟨c1.solids, ⟨c2.solids, c3.solids⟩, c4.solids⟩
  · rw [← lives_solids, hso, chunks_mid]
    simp only [lives_append, lives_solids]
    simp [lives, hkd]
  · rw [S.dBytes]; simp only; omega

/-- The loop only removes from the front of the delay list, until the list is within its limits. -/
theorem drain_spec (hc : CfgOk c) (os : Os) : ∀ (m : Nat) {s : St} {G : List (Arena × List Ck)},
    Pre c R s G → Calm (chunks G) →
    ∃ s' G', drain c os 0 m s = some s' ∧ Pre c R s' G' ∧ Calm (chunks G') ∧ s'.mem = s.mem ∧
      s'.maps = s.maps ∧ lives (chunks G') = lives (chunks G) ∧
      (s.delay.length ≤ m → quar R s' = trim c.delayFrees c.delayMax (quar R s)) := by
  intro m
  induction m with
  | zero =>
    intro s G hp hcalm
    refine ⟨s, G, rfl, hp, hcalm, rfl, rfl, rfl, fun h => ?_⟩
    unfold quar
    rw [List.length_eq_zero_iff.1 (Nat.le_zero.1 h)]; rfl
  | succ m ih =>
    intro s G hp hcalm
    unfold drain
    by_cases hf : full c s = true
    · rw [if_pos hf]
      cases hd : s.delay with
      | nil =>
        refine ⟨s, G, rfl, hp, hcalm, rfl, rfl, rfl, fun _ => ?_⟩
        unfold quar
        rw [hd]; rfl
      | cons p rest =>
        obtain ⟨s1, G1, e1, P1, C1, m1, mp1, d1, l1, -⟩ := shift_spec hc hp hcalm hd os
        obtain ⟨s2, G2, e2, P2, C2, m2, mp2, l2, f2⟩ := ih P1 C1
        simp only [e1]
        refine ⟨s2, G2, e2, P2, C2, m2.trans m1, mp2.trans mp1, l2.trans l1, ?_⟩
        intro h
        rw [f2 (by rw [d1]; simp only [List.length_cons] at h; omega)]
        have hq : quar R s = (p, R p) :: quar R s1 := by unfold quar; rw [hd, d1]; rfl
        have hf' := hp.full_eq.1 hf
        rw [hq] at hf' ⊢
        rw [trim, if_pos hf']
    · rw [if_neg hf]
      refine ⟨s, G, rfl, hp, hcalm, rfl, rfl, rfl, fun _ => ?_⟩
      rw [hp.full_eq] at hf
      cases hq : quar R s with
      | nil => rfl
      | cons x q => rw [hq] at hf; rw [trim, if_neg hf]

/-- Entering the delay list. -/
theorem addDelay_spec (hc : CfgOk c) (os : Os) {h : Hdr} {q : Nat}
    (hp : Pre c R s (G1 ++ (a, l ++ k :: r) :: G2))
    (hcalm : Calm (chunks (G1 ++ (a, l ++ k :: r) :: G2))) (hk : k.st = .live q)
    (hh : s.hdr k.p = some h) :
    ∃ s' R' G', addDelay c os (s.put k.p { h with freed := true }) k.p = some s' ∧ Pre c R' s' G' ∧
      Calm (chunks G') ∧ s'.mem = s.mem ∧ s'.maps = s.maps ∧
      lives (chunks G') = lives (chunks (G1 ++ (a, l ++ { k with st := .delay } :: r) :: G2)) ∧
      (∀ m ∈ s.maps, R' m.ptr = R m.ptr) ∧
      quar R' s' = trim c.delayFrees c.delayMax (quar R s ++ [(k.p, h.size)]) := by
  obtain ⟨h', ha⟩ := hp.at
  have := ha.hdr
  rw [hh] at this
  cases this
  have hne : ∀ k' ∈ chunks (G1 ++ (a, l ++ k :: r) :: G2), k'.st = .delay → k'.p ≠ k.p := by
    intro k' hk' hd he
    obtain ⟨g, hg, hkg⟩ := List.mem_flatMap.1 hk'
    obtain ⟨x, pm, h1, h2⟩ := (hp.rep g hg).hdr_mem k' hkg
    rw [he, hh] at h1
    cases h1
    have h3 := h2.freed
    have h4 := ha.ok.freed
    rw [h4, hk, hd] at h3
    cases h3
  have hmp : ∀ m ∈ s.maps, (if m.ptr = k.p then k.size else R m.ptr) = R m.ptr := by
    intro m hm
    obtain ⟨x, h1, h2, -⟩ := (hp.maps m hm).hdr
    rw [if_neg]
    intro he
    rw [he, hh] at h1
    cases h1
    rw [ha.ok.mmap] at h2
    cases h2
  have hqr : quar (fun x => if x = k.p then k.size else R x) s = quar R s := by
    unfold quar
    apply List.map_congr_left
    intro p hpd
    obtain ⟨_, _, _, k', _, _, hG, rfl, hd⟩ := hp.delay_split hpd
    simp only [if_neg (hne k' (by rw [hG, chunks_mid]; simp) hd)]
  replace hp : Pre c (fun x => if x = k.p then k.size else R x) s (G1 ++ (a, l ++ k :: r) :: G2) := by
    refine hp.reR hmp fun k' hk' hd => ?_
    rw [if_neg (hne k' hk' hd)]
    exact hp.dz k' hk' hd
  rw [← hqr]
  clear hqr hne
  have hRk : (fun x => if x = k.p then k.size else R x) k.p = k.size := if_pos rfl
  suffices ∃ s' G', addDelay c os (s.put k.p { h with freed := true }) k.p = some s' ∧
      Pre c (fun x => if x = k.p then k.size else R x) s' G' ∧ Calm (chunks G') ∧ s'.mem = s.mem ∧
      s'.maps = s.maps ∧
      lives (chunks G') = lives (chunks (G1 ++ (a, l ++ { k with st := .delay } :: r) :: G2)) ∧
      quar (fun x => if x = k.p then k.size else R x) s' = trim c.delayFrees c.delayMax
        (quar (fun x => if x = k.p then k.size else R x) s ++ [(k.p, h.size)]) by
    obtain ⟨s', G', a1, a2, a3, a4, a5, a6, a7⟩ := this
    exact ⟨s', _, G', a1, a2, a3, a4, a5, a6, hmp, a7⟩
  generalize (fun x => if x = k.p then k.size else R x) = R at hp hRk ⊢
  have hdl : dl ({ k with st := .delay } :: r) = k.p :: dl r := by simp [dl]
  have hdb : db ({ k with st := .delay } :: r) = k.size + db r := by simp [db]
  have hdl' : dl (k :: r) = dl r := dl_cons_not (by rw [hk]; intro h; cases h) r
  have hdb' : db (k :: r) = db r := db_cons_not (by rw [hk]; intro h; cases h) r
  have hP : Pre c R { (s.put k.p { h with freed := true }).put k.p { h with freed := true, delay := true } with
      delay := s.delay ++ [k.p], dChunks := s.dChunks + 1, dBytes := s.dBytes + h.size }
      (G1 ++ (a, l ++ { k with st := .delay } :: r) :: G2) := by
    refine hp.restate (h' := { h with freed := true, delay := true }) ?_ rfl rfl rfl rfl ?_ ?_
      (fun h => by cases h) ?_ ?_ ?_ ?_ (fun _ => Or.inr hRk)
    · funext y
      simp only [put_hdr]
      split <;> rfl
    · unfold Ck.fsz; rw [hk]
    · exact ⟨ha.ok.size, rfl, rfl, ha.ok.mmap, ha.ok.prevFree, ha.ok.prevSz, fun r hr => by cases hr⟩
    · intro b X hX
      rw [fr_cons_not (by rw [hk]; intro h; cases h)] at hX
      rw [fr_cons_not (by intro h; cases h)]; exact hX
    · intro X hX
      rw [hdl'] at hX
      rw [hdl]
      exact (List.perm_append_comm (l₁ := s.delay) (l₂ := [k.p])).trans
        (List.Perm.append_left [k.p] hX)
    · rw [hdl, hdl']; simp only [List.length_cons]; omega
    · rw [hdb, hdb', ha.ok.size]; simp only; omega
  have hcalm' : Calm (chunks (G1 ++ (a, l ++ { k with st := .delay } :: r) :: G2)) := by
    obtain ⟨c1, c2, c3, c4⟩ := hcalm.mid
    rw [chunks_mid, Calm.append, Calm.append, Calm.append]
    refine ⟨c1, ⟨c2, fun k' hk' => ?_⟩, c4⟩
    rcases List.mem_cons.1 hk' with rfl | hk'
    · exact Or.inr (Or.inl rfl)
    · exact c3 k' hk'
  obtain ⟨s', G', e, P, C, m, mp, lv, f⟩ := drain_spec hc os (s.delay ++ [k.p]).length hP hcalm'
  refine ⟨s', G', ?_, P, C, m, mp, lv, ?_⟩
  rotate_right
  · rw [f (Nat.le_refl _), ha.ok.size]
    unfold quar
    simp only [List.map_append, List.map_cons, List.map_nil, hRk]
  unfold addDelay
  rw [put_hdr, if_pos rfl]
  exact e

/-! ## Which addresses are accepted -/

theorem mem_lives {p q : Nat} (h : (p, q) ∈ lives (chunks G)) :
    ∃ G1 a l k r G2, G = G1 ++ (a, l ++ k :: r) :: G2 ∧ k.p = p ∧ k.st = .live q := by
  obtain ⟨k, hk, he⟩ := List.mem_filterMap.1 h
  obtain ⟨G1, a, l, r, G2, hG⟩ := chunk_split hk
  refine ⟨G1, a, l, k, r, G2, hG, ?_⟩
  cases hst : k.st with
  | live r =>
    rw [hst] at he
    simp only [Option.some.injEq, Prod.mk.injEq] at he
    exact ⟨he.1, by rw [he.2]⟩
  | _ => rw [hst] at he; cases he

/-- The blocks in use: address and size asked for. -/
def blocks (R : Nat → Nat) (s : St) (G : List (Arena × List Ck)) : List (Nat × Nat) :=
  lives (chunks G) ++ s.maps.map fun m => (m.ptr, R m.ptr)

theorem Pre.hdr_live (hc : CfgOk c) (hp : Pre c R s G) {p q : Nat} (h : (p, q) ∈ lives (chunks G)) :
    isLive c s p = true ∧ ∃ h, s.hdr p = some h ∧ h.mmap = false ∧ h.req = q ∧ h.freed = false ∧
      q ≤ h.size ∧ h.reqDiff ≤ h.size := by
  obtain ⟨G1, a, l, k, r, G2, rfl, rfl, hk⟩ := mem_lives h
  obtain ⟨h, ha⟩ := hp.at
  have hf := ha.ok.freed
  rw [hk] at hf
  have hreq := ha.ok.req _ hk
  have hlo := ha.lo
  have hbase := ha.base
  have hhi := ha.hi
  have hcm := ha.commit
  have hI := inter_pos c
  have hal : k.p % c.A = 0 := Nat.mod_eq_zero_of_dvd
    (((hp.rep (a, l ++ k :: r) (by simp)).align hc hp.geo_at.start).2 k (by simp))
  refine ⟨?_, h, ha.hdr, ha.ok.mmap, ?_, hf, by rw [ha.ok.size]; exact hreq.1, ?_⟩
  · unfold isLive
    simp only [ha.hdr]
    have hfa := hp.findArena (n := 0) (Nat.zero_le _) hlo (by omega)
    rw [List.drop_zero] at hfa
    have h0 : k.p ≠ 0 := by omega
    have hf' : h.freed = false := hf
    simp [hfa, hf', h0, hal]
  · unfold Hdr.req
    rw [ha.ok.size, hreq.2]; omega
  · rw [ha.ok.size, hreq.2]; omega

theorem Pre.hdr_map (hp : Pre c R s G) {m : Map} (h : m ∈ s.maps) :
    isLive c s m.ptr = true ∧ ∃ h, s.hdr m.ptr = some h ∧ h.mmap = true ∧ h.req = R m.ptr ∧
      h.freed = false ∧ h.reqDiff ≤ h.size := by
  have hm := hp.maps m h
  obtain ⟨x, h1, h2, h3, h4, h5, h6⟩ := hm.hdr
  refine ⟨?_, x, h1, h2, h5, h3, h4⟩
  have hpos := hm.pos
  have h0 : m.ptr ≠ 0 := by omega
  have hal : m.ptr % c.A = 0 := Nat.mod_eq_zero_of_dvd hm.align
  unfold isLive
  simp [h1, h2, h3, h0, hal]

/-- An address passes the check of `free` exactly if it is a block in use. -/
theorem Pre.isLive_iff (hc : CfgOk c) (hp : Pre c R s G) (hcalm : Calm (chunks G)) (p : Nat) :
    isLive c s p = true ↔ ∃ q, (p, q) ∈ blocks R s G := by
  constructor
  · intro h
    unfold isLive at h
    cases hh : s.hdr p with
    | none => rw [hh] at h; cases h
    | some x =>
      rw [hh] at h
      simp only [Bool.and_eq_true, Bool.not_eq_true'] at h
      have hf : x.freed = false := h.1.2
      rcases hp.stale p x hh hf with ⟨k, hk, hkp⟩ | ⟨m, hm, hmp⟩
      · obtain ⟨g, hg, hkg⟩ := List.mem_flatMap.1 hk
        obtain ⟨x', pm, h1, h2⟩ := (hp.rep g hg).hdr_mem k hkg
        rw [hkp, hh] at h1
        cases h1
        have h3 := h2.freed
        rw [hf] at h3
        rcases hcalm k hk with ⟨q, hq⟩ | hq | hq
        · refine ⟨q, List.mem_append_left _ (List.mem_filterMap.2 ⟨k, hk, ?_⟩)⟩
          rw [hq, hkp]
        · rw [hq] at h3; cases h3
        · rw [hq] at h3; cases h3
      · exact ⟨R p, List.mem_append_right _ (List.mem_map.2 ⟨m, hm, by rw [hmp]⟩)⟩
  · rintro ⟨q, hq⟩
    rcases List.mem_append.1 hq with h | h
    · exact (hp.hdr_live hc h).1
    · obtain ⟨m, hm, he⟩ := List.mem_map.1 h
      cases he
      exact (hp.hdr_map hm).1

/-! ## `free` -/

theorem free_invalid (hc : CfgOk c) (hp : Pre c R s G) (hcalm : Calm (chunks G)) (os : Os) {p : Nat}
    (h : ∀ q, (p, q) ∉ blocks R s G) : free c os s p = some (s, false) := by
  have : isLive c s p = false := by
    rw [Bool.eq_false_iff]
    intro h1
    obtain ⟨q, hq⟩ := (hp.isLive_iff hc hcalm p).1 h1
    exact h q hq
  unfold free
  rw [this]; rfl

theorem free_chunk (hc : CfgOk c) (hp : Pre c R s G) (hcalm : Calm (chunks G)) (os : Os) {p q : Nat}
    (h : (p, q) ∈ lives (chunks G)) :
    ∃ s' R' G' h, free c os s p = some (s', true) ∧ Pre c R' s' G' ∧ Calm (chunks G') ∧
      s'.mem = s.mem ∧ (blocks R s G).Perm ((p, q) :: blocks R' s' G') ∧ s.hdr p = some h ∧
      quar R' s' = trim c.delayFrees c.delayMax (quar R s ++ [(p, h.size)]) := by
  obtain ⟨hl, x, hx, hm, -⟩ := hp.hdr_live hc h
  obtain ⟨G1, a, l, k, r, G2, rfl, rfl, hk⟩ := mem_lives h
  obtain ⟨s', R', G', e, P, C, m, mp, lv, hR, f⟩ := addDelay_spec hc os hp hcalm hk hx
  refine ⟨s', R', G', x, ?_, P, C, m, ?_, hx, f⟩
  · unfold free
    rw [if_pos hl]
    simp only [hx]
    rw [if_neg (by simp [hm]), e]
  · unfold blocks
    rw [← List.cons_append, mp, List.map_congr_left (f := fun m : Map => (m.ptr, R' m.ptr))
      (g := fun m => (m.ptr, R m.ptr)) fun m hm => by rw [hR m hm]]
    refine List.Perm.append_right _ ?_
    rw [lv, chunks_mid, chunks_mid]
    simp only [lives_append]
    have h1 : lives (k :: r) = (k.p, q) :: lives r := by simp [lives, hk]
    have h2 : lives ({ k with st := .delay } :: r) = lives r := by simp [lives]
    rw [h1, h2, List.append_assoc, List.append_assoc, List.cons_append, ← List.append_assoc,
      ← List.append_assoc (lives (chunks G1)) (lives l)]
    exact List.perm_middle

theorem Pre.map_region (hp : Pre c R s G) : s.maps.Pairwise fun m m' =>
    Disj (m.base, m.base + m.size) (m'.base, m'.base + m'.size) := by
  have h := hp.regs
  unfold Al.regs at h
  rw [List.pairwise_append] at h
  exact List.pairwise_map.1 h.2.1

theorem Pre.map_unique (hp : Pre c R s G) {m m' : Map} (h : m ∈ s.maps) (h' : m' ∈ s.maps) {y : Nat}
    (h1 : m.base ≤ y) (h2 : y < m.base + m.size) (h3 : m'.base ≤ y) (h4 : y < m'.base + m'.size) :
    m = m' := by
  have hpw := hp.map_region
  by_contra hne
  have : Std.Symm fun m m' : Map =>
      Disj (m.base, m.base + m.size) (m'.base, m'.base + m'.size) := ⟨fun _ _ h => Or.symm h⟩
  have := hpw.forall h h' hne
  simp only [Disj] at this
  omega

/-- A large block disappears. -/
theorem Pre.unmap (hp : Pre c R s G) {m : Map} (hm : m ∈ s.maps) {s' : St}
    (hhdr : ∀ y, ¬ (m.base ≤ y ∧ y < m.base + m.size) → s'.hdr y = s.hdr y)
    (hhdr' : ∀ y, m.base ≤ y → y < m.base + m.size → s'.hdr y = none)
    (har : s'.arenas = s.arenas) (hfree : s'.free = s.free) (hdelay : s'.delay = s.delay)
    (hdc : s'.dChunks = s.dChunks) (hdb : s'.dBytes = s.dBytes) (hmaps : s'.maps = s.maps.erase m) :
    Pre c R s' G := by
  have hkeep : ∀ m' ∈ s.maps.erase m, m' ∈ s.maps ∧ m' ≠ m := by
    intro m' hm'
    refine ⟨List.mem_of_mem_erase hm', ?_⟩
    rintro rfl
    have hnd : s.maps.Nodup := by
      refine hp.map_region.imp_of_mem ?_
      intro x y hx _ hd he
      subst he
      have := (hp.maps x hx).pos
      have := (hp.maps x hx).fits
      simp only [Disj] at hd
      omega
    exact hnd.not_mem_erase hm'
  constructor
  · rw [har]; exact hp.arenas
  · exact hp.ne
  · exact hp.geo
  · intro g hg
    refine (hp.rep g hg).frame fun y h1 h2 => hhdr y ?_
    have hd := hp.map_disj hg hm
    have hg2 := hp.geo g hg
    have h3 := hg2.base
    have h4 := hg2.commit
    simp only [Disj] at hd
    omega
  · rw [har, hmaps]
    refine hp.regs.sublist ?_
    unfold Al.regs
    exact (List.Sublist.refl _).append (List.erase_sublist.map _)
  · intro b; rw [hfree]; exact hp.free b
  · rw [hdelay]; exact hp.delay
  · rw [hdc]; exact hp.dChunks
  · rw [hdb]; exact hp.dBytes
  · intro m' hm'
    rw [hmaps] at hm'
    obtain ⟨h1, h2⟩ := hkeep m' hm'
    have h3 := hp.maps m' h1
    have hf : s'.hdr m'.ptr = s.hdr m'.ptr := by
      apply hhdr
      rintro ⟨h4, h5⟩
      exact h2 (hp.map_unique h1 hm (Nat.le_of_lt h3.pos) h3.fits h4 h5)
    exact { h3 with hdr := by rw [hf]; exact h3.hdr }
  · intro p h hh hf
    by_cases hin : m.base ≤ p ∧ p < m.base + m.size
    · rw [hhdr' p hin.1 hin.2] at hh; cases hh
    · rw [hhdr p hin] at hh
      rcases hp.stale p h hh hf with hk | ⟨m', hm', hmp⟩
      · exact Or.inl hk
      · right
        refine ⟨m', ?_, hmp⟩
        rw [hmaps]
        refine (List.mem_erase_of_ne ?_).2 hm'
        rintro rfl
        exact hin ⟨by have := (hp.maps m' hm').pos; omega, by have := (hp.maps m' hm').fits; omega⟩
  · exact hp.dz

theorem free_map (hp : Pre c R s G) (os : Os) {m : Map}
    (hm : m ∈ s.maps) :
    ∃ s', free c os s m.ptr = some (s', true) ∧ Pre c R s' G ∧ s'.mem = s.mem ∧
      s'.maps = s.maps.erase m ∧ s'.delay = s.delay ∧ s'.dChunks = s.dChunks ∧
      s'.dBytes = s.dBytes := by
  obtain ⟨hl, x, hx, hmm, -⟩ := hp.hdr_map hm
  have hfind : s.maps.find? (fun m' => decide (m'.ptr = m.ptr)) = some m := by
    cases hf : s.maps.find? (fun m' => decide (m'.ptr = m.ptr)) with
    | none =>
      rw [List.find?_eq_none] at hf
      exact absurd (decide_eq_true rfl) (hf m hm)
    | some m' =>
      have h1 := List.find?_some hf
      have h2 := List.mem_of_find?_eq_some hf
      simp only [decide_eq_true_eq] at h1
      have a1 := (hp.maps m hm).pos
      have a2 := (hp.maps m hm).fits
      have a3 := (hp.maps m' h2).pos
      have a4 := (hp.maps m' h2).fits
      rw [hp.map_unique h2 hm (y := m.ptr) (by omega) (by omega) (by omega) (by omega)]
  refine ⟨{ (s.put m.ptr { x with freed := true }).wipe m.base (m.base + m.size) with
      maps := s.maps.erase m }, ?_, ?_, rfl, rfl, rfl, rfl, rfl⟩
  · unfold free
    simp only [hl, if_true, hx, hmm, put_maps, hfind]
  · refine hp.unmap hm ?_ ?_ rfl rfl rfl rfl rfl rfl
    · intro y hy
      have a1 := (hp.maps m hm).pos
      have a2 := (hp.maps m hm).fits
      simp only [St.wipe]
      rw [if_neg hy, put_hdr, if_neg (by omega)]
    · intro y h1 h2
      simp only [St.wipe]
      rw [if_pos ⟨h1, h2⟩]

end Verif.Al
