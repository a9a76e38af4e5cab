import Verif.AllocFree

/-!
# Allocating from the free lists and from the arenas
-/
namespace Verif.Al

variable {c : Cfg} {R : Nat → Nat} {s : St} {G G1 G2 : List (Arena × List Ck)} {a : Arena}
  {l r : List Ck} {k : Ck} {n x : Nat}

/-! ## Size classes -/

theorem bucketDown_le (sizes : List Nat) (size : Nat) (b : Nat) :
    bucketDown sizes size b = 0 ∨ sizes.getD (bucketDown sizes size b) 0 ≤ size := by
  induction b with
  | zero => exact Or.inl rfl
  | succ b ih =>
    unfold bucketDown
    split
    · exact ih
    · right; omega

theorem bucketDown_bound (sizes : List Nat) (size : Nat) (b : Nat) : bucketDown sizes size b ≤ b := by
  induction b with
  | zero => exact Nat.le_refl _
  | succ b ih =>
    unfold bucketDown
    split
    · omega
    · exact Nat.le_refl _

theorem bucketDown_max (sizes : List Nat) (size : Nat) (b j : Nat) (hj : j ≤ b)
    (h : bucketDown sizes size b < j) : size < sizes.getD j 0 := by
  induction b with
  | zero => omega
  | succ b ih =>
    unfold bucketDown at h
    split at h
    · next hs =>
      rcases Nat.lt_or_ge b j with h1 | h1
      · rw [show j = b + 1 by omega]; exact hs
      · exact ih h1 h
    · omega

theorem sizes_mono (c : Cfg) : ∀ i < c.numLists, ∀ j < c.numLists, i < j →
    c.sizes.getD i 0 < c.sizes.getD j 0 := by
  unfold Cfg.numLists Cfg.sizes
  cases c.x64
  · decide
  · decide

theorem sizes_zero (c : Cfg) : c.sizes.getD 0 0 = c.A := by
  unfold Cfg.sizes Cfg.A
  cases c.x64 <;> rfl

theorem numLists_gt (c : Cfg) : 7 < c.numLists := by
  unfold Cfg.numLists Cfg.sizes
  cases c.x64 <;> decide

theorem bucketIndex_lt (c : Cfg) (size : Nat) : bucketIndex c size < c.numLists := by
  have := numLists_gt c
  unfold bucketIndex
  split
  · have := bucketDown_bound c.sizes size (c.numLists - 1); omega
  · have := bucketDown_bound c.sizes size 6; omega

/-- The class of a chunk is the largest one not exceeding its size. -/
theorem bucketIndex_le (c : Cfg) {size : Nat} (h : c.A ≤ size) :
    c.sizes.getD (bucketIndex c size) 0 ≤ size := by
  unfold bucketIndex
  rcases bucketDown_le c.sizes size (if size > c.sizes.getD 6 0 then c.numLists - 1 else 6) with h1 | h1
  · rw [h1, sizes_zero]; exact h
  · exact h1

theorem bucketIndex_max (c : Cfg) {size j : Nat} (hj : j < c.numLists) (h : bucketIndex c size < j) :
    size < c.sizes.getD j 0 := by
  have h7 := numLists_gt c
  unfold bucketIndex at h
  split at h
  · exact bucketDown_max c.sizes size (c.numLists - 1) j (by omega) h
  · rcases Nat.lt_or_ge 6 j with h1 | h1
    · have := sizes_mono c 6 (by omega) j hj h1
      omega
    · exact bucketDown_max c.sizes size 6 j h1 h

theorem firstBucket_spec (sizes : List Nat) (size : Nat) : ∀ m b,
    b ≤ firstBucket sizes size m b ∧ firstBucket sizes size m b ≤ b + m ∧
    (firstBucket sizes size m b < b + m → size ≤ sizes.getD (firstBucket sizes size m b) 0) ∧
    (∀ j, b ≤ j → j < firstBucket sizes size m b → sizes.getD j 0 < size) := by
  intro m
  induction m with
  | zero => intro b; exact ⟨Nat.le_refl _, Nat.le_refl _, fun h => absurd h (by simp [firstBucket]),
      fun j h1 h2 => by unfold firstBucket at h2; omega⟩
  | succ m ih =>
    intro b
    unfold firstBucket
    split
    · next hs =>
      obtain ⟨h1, h2, h3, h4⟩ := ih (b + 1)
      refine ⟨by omega, by omega, fun h => h3 (by omega), fun j hj hj' => ?_⟩
      rcases Nat.eq_or_lt_of_le hj with rfl | hj
      · exact hs
      · exact h4 j hj hj'
    · refine ⟨Nat.le_refl _, by omega, fun _ => by omega, fun j _ _ => by omega⟩

theorem nonEmptyBucket_spec (f : Nat → List Nat) : ∀ m b,
    b ≤ nonEmptyBucket f m b ∧ nonEmptyBucket f m b ≤ b + m ∧
    (nonEmptyBucket f m b < b + m → f (nonEmptyBucket f m b) ≠ []) ∧
    (∀ j, b ≤ j → j < nonEmptyBucket f m b → f j = []) := by
  intro m
  induction m with
  | zero => intro b; exact ⟨Nat.le_refl _, Nat.le_refl _, fun h => absurd h (by simp [nonEmptyBucket]),
      fun j h1 h2 => by unfold nonEmptyBucket at h2; omega⟩
  | succ m ih =>
    intro b
    unfold nonEmptyBucket
    split
    · next hs =>
      obtain ⟨h1, h2, h3, h4⟩ := ih (b + 1)
      refine ⟨by omega, by omega, fun h => h3 (by omega), fun j hj hj' => ?_⟩
      rcases Nat.eq_or_lt_of_le hj with rfl | hj
      · exact List.isEmpty_iff.1 hs
      · exact h4 j hj hj'
    · next hs =>
      refine ⟨Nat.le_refl _, by omega, fun _ h => hs (by rw [h]; rfl), fun j _ _ => by omega⟩

/-- Where a chunk on a free list lies. -/
theorem Pre.free_split (hp : Pre c R s G) {b p : Nat} (h : p ∈ s.free b) :
    ∃ G1 a l k r G2, G = G1 ++ (a, l ++ k :: r) :: G2 ∧ k.p = p ∧ k.st = .free ∧
      bucketIndex c k.size = b := by
  rw [(hp.free b).mem_iff] at h
  obtain ⟨k, hk, hkp⟩ := List.mem_map.1 h
  obtain ⟨h1, h2⟩ := List.mem_filter.1 hk
  obtain ⟨G1, a, l, r, G2, hG⟩ := chunk_split h1
  simp only [decide_eq_true_eq] at h2
  exact ⟨G1, a, l, k, r, G2, hG, hkp, h2.1, h2.2⟩

/-- The chosen chunk is free and large enough. -/
theorem pick_spec (hp : Pre c R s G) {size p : Nat} (h : pick c s size = some p) :
    ∃ G1 a l k r G2, G = G1 ++ (a, l ++ k :: r) :: G2 ∧ k.p = p ∧ k.st = .free ∧
      bucketIndex c k.size = pickBucket c s size ∧ size ≤ k.size := by
  have h7 := numLists_gt c
  unfold pick at h
  simp only at h
  have hpb : nonEmptyBucket s.free (c.numLists - 1 - firstBucket c.sizes size (c.numLists - 1) 0)
      (firstBucket c.sizes size (c.numLists - 1) 0) = pickBucket c s size := rfl
  rw [hpb] at h
  obtain ⟨f1, f2, f3, -⟩ := firstBucket_spec c.sizes size (c.numLists - 1) 0
  obtain ⟨n1, n2, -, -⟩ := nonEmptyBucket_spec s.free
    (c.numLists - 1 - firstBucket c.sizes size (c.numLists - 1) 0)
    (firstBucket c.sizes size (c.numLists - 1) 0)
  rw [hpb] at n1 n2
  split at h
  · next hb =>
    have hm := List.mem_of_find?_eq_some h
    obtain ⟨G1, a, l, k, r, G2, hG, hk1, hk2, hk3⟩ := hp.free_split hm
    refine ⟨G1, a, l, k, r, G2, hG, hk1, hk2, hk3, ?_⟩
    have hs := List.find?_some h
    subst hG
    obtain ⟨x, ha⟩ := hp.at
    rw [← hk1, ha.hdr] at hs
    simp only [ha.ok.size] at hs
    exact of_decide_eq_true hs
  · next hb =>
    have hm := List.mem_of_head? h
    obtain ⟨G1, a, l, k, r, G2, hG, hk1, hk2, hk3⟩ := hp.free_split hm
    refine ⟨G1, a, l, k, r, G2, hG, hk1, hk2, hk3, ?_⟩
    subst hG
    obtain ⟨x, ha⟩ := hp.at
    have h1 := bucketIndex_le c ha.min
    rw [hk3] at h1
    have h2 := f3 (by omega)
    rcases Nat.eq_or_lt_of_le n1 with h3 | h3
    · rw [h3] at h2; omega
    · have := sizes_mono c _ (by omega) _ (by omega) h3
      omega

/-! ## Taking a chunk -/

/-- The end of `find_free_list_entry`. -/
def takeIt (c : Cfg) (n : Nat) (s : St) (p : Nat) (h : Hdr) : Option (St × Option Nat) :=
  let s := s.put p { h with freed := false }
  match nextForward c s n p h.size with
  | .chunk q => match s.hdr q with
    | none => none
    | some x => some (s.put q { x with prevFree := false }, some p)
  | .last i => some ({ s with arenas := s.arenas.modify i fun a => { a with prevFree := 0 } }, some p)
  | .lost => some (s, some p)

theorem takeIt_spec (hp : Pre c R s (G1 ++ (a, l ++ k :: r) :: G2)) (hn : n ≤ G1.length)
    (hx : k.st = .pop ∨ ∃ x, k.st = .held x) {h : Hdr} (hh : s.hdr k.p = some h) :
    ∃ s' a', takeIt c n s k.p h = some (s', some k.p) ∧ a.eqv a' ∧ Same s s' ∧
      Pre c R s' (G1 ++ (a', l ++ { k with st := .raw } :: r) :: G2) := by
  obtain ⟨h', ha⟩ := hp.at
  have := ha.hdr
  rw [hh] at this
  cases this
  have hA := A_pos c
  have hI := inter_pos c
  have hmin := ha.min
  have hbase := ha.base
  have hlo := ha.lo
  have hhi := ha.hi
  have hcm := ha.commit
  have hgeo := hp.geo_at
  have hfre : k.st ≠ .free := by rcases hx with h | ⟨x, h⟩ <;> rw [h] <;> simp
  have hdel : k.st ≠ .delay := by rcases hx with h | ⟨x, h⟩ <;> rw [h] <;> simp
  have hfrd : k.st.freed = true := by rcases hx with h | ⟨x, h⟩ <;> rw [h] <;> rfl
  have hok' : HdrOk { h with freed := false } { k with st := .raw } (lastFsz l) := by
    refine ⟨ha.ok.size, rfl, ?_, ha.ok.mmap, ha.ok.prevFree, ha.ok.prevSz, fun r hr => by cases hr⟩
    have := ha.ok.delay
    rw [decide_eq_false hdel] at this
    exact this
  unfold takeIt
  have hnx : nextForward c (s.put k.p { h with freed := false }) n k.p h.size =
      nextForward c s n k.p k.size := by rw [ha.ok.size]; rfl
  simp only [hnx]
  cases r with
  | nil =>
    have hend := ha.right.1
    rw [hp.nextForward_nil hn]
    refine ⟨_, { a with prevFree := 0 }, rfl, rfl, ⟨rfl, rfl, rfl, rfl, rfl⟩, ?_⟩
    refine hp.edit ha.left ?_ (hp.modify _) ?_ rfl rfl (Nat.le_refl _) rfl ?_
      ?_ ?_ ?_ ?_ ?_
    · refine ⟨rfl, ha.min, ha.dvd, ⟨_, ?_, hok'⟩, (fun h => by cases h), hend, rfl⟩
      show (s.put k.p _).hdr k.p = _
      rw [put_hdr, if_pos rfl]
    · exact ⟨hgeo.start, hgeo.base, hgeo.next, hgeo.commit, hgeo.pages, hgeo.span⟩
    · intro p hpn
      show (s.put k.p _).hdr p = _
      rw [put_hdr, if_neg (by omega)]
    · intro b X hX
      rw [fr_cons_not hfre] at hX
      rw [fr_cons_not (by intro h; cases h)]; exact hX
    · intro X hX
      rw [dl_cons_not hdel] at hX
      rw [dl_cons_not (by intro h; cases h)]; exact hX
    · rw [dl_cons_not hdel, dl_cons_not (k := { k with st := .raw }) (by intro h; cases h)]; rfl
    · rw [db_cons_not hdel, db_cons_not (k := { k with st := .raw }) (by intro h; cases h)]; rfl
    · intro p h' g1 g2 g3 g4
      by_cases hpk : p = k.p
      · exact ⟨_, List.mem_cons_self .., hpk.symm⟩
      · have g3' : (s.put k.p { h with freed := false }).hdr p = some h' := g3
        rw [put_hdr, if_neg hpk] at g3'
        obtain ⟨k', hk', hkp, hkf⟩ := hp.stale_in ha.left g1 g2 g3' g4
        rcases List.mem_singleton.1 hk' with rfl
        exact absurd hkp.symm hpk
  | cons k1 r =>
    rw [hp.nextForward_cons hn]
    obtain ⟨h1, h2, h3, ⟨x1, h4, h5⟩, h6, h7⟩ := ha.right
    rw [← h1] at h4
    have hne : k1.p ≠ k.p := by omega
    simp only [put_hdr, if_neg hne, h4]
    refine ⟨_, a, rfl, rfl, ⟨rfl, rfl, rfl, rfl, rfl⟩, ?_⟩
    have hle := h7.le
    refine hp.edit ha.left ?_ (by rw [put_arenas, put_arenas, hp.arenas]; simp) hgeo rfl rfl
      (Nat.le_refl _) rfl ?_ ?_ ?_ ?_ ?_ ?_
    · refine ⟨rfl, ha.min, ha.dvd, ⟨{ h with freed := false }, ?_, hok'⟩, (fun h => by cases h), ?_⟩
      · rw [put_hdr, if_neg hne.symm, put_hdr, if_pos rfl]
      · refine ⟨h1, h2, h3, ⟨{ x1 with prevFree := false }, ?_, ?_⟩, fun _ => rfl, ?_⟩
        · rw [put_hdr, if_pos h1.symm]
        · exact ⟨h5.size, h5.freed, h5.delay, h5.mmap, rfl, fun h => absurd rfl h, h5.req⟩
        · refine h7.frame fun y hy _ => ?_
          rw [put_hdr, if_neg (by omega), put_hdr, if_neg (by omega)]
    · intro p hpn
      rw [put_hdr, if_neg (by omega), put_hdr, if_neg (by omega)]
    · intro b X hX
      rw [fr_cons_not hfre] at hX
      rw [fr_cons_not (by intro h; cases h)]; exact hX
    · intro X hX
      rw [dl_cons_not hdel] at hX
      rw [dl_cons_not (by intro h; cases h)]; exact hX
    · rw [dl_cons_not hdel, dl_cons_not (k := { k with st := .raw }) (by intro h; cases h)]; rfl
    · rw [db_cons_not hdel, db_cons_not (k := { k with st := .raw }) (by intro h; cases h)]; rfl
    · intro p h' g1 g2 g3 g4
      by_cases hpk1 : p = k1.p
      · exact ⟨k1, by simp, hpk1.symm⟩
      · by_cases hpk : p = k.p
        · exact ⟨_, List.mem_cons_self .., hpk.symm⟩
        · rw [put_hdr, if_neg hpk1, put_hdr, if_neg hpk] at g3
          obtain ⟨k', hk', hkp, hkf⟩ := hp.stale_in ha.left g1 g2 g3 g4
          rcases List.mem_cons.1 hk' with rfl | hk'
          · exact absurd hkp.symm hpk
          · exact ⟨k', List.mem_cons_of_mem _ hk', hkp⟩

/-! ## Splitting -/

/-- Everything but one chunk is calm. -/
structure Around (G1 : List (Arena × List Ck)) (l r : List Ck) (G2 : List (Arena × List Ck)) : Prop where
  g1 : Calm (chunks G1)
  l : Calm l
  r : Calm r
  g2 : Calm (chunks G2)

theorem Calm.around (h : Calm (chunks (G1 ++ (a, l ++ k :: r) :: G2))) : Around G1 l r G2 := by
  obtain ⟨h1, h2, h3, h4⟩ := h.mid
  exact ⟨h1, h2, h3, h4⟩

/-- The blocks around one chunk. -/
def livesAround (G1 : List (Arena × List Ck)) (l r : List Ck) (G2 : List (Arena × List Ck)) :
    List (Nat × Nat) := lives (chunks G1) ++ (lives l ++ (lives r ++ lives (chunks G2)))

theorem lives_mid (G1 G2 : List (Arena × List Ck)) (a : Arena) (l r : List Ck) (k : Ck) :
    lives (chunks (G1 ++ (a, l ++ k :: r) :: G2)) =
      lives (chunks G1) ++ (lives l ++ (lives [k] ++ (lives r ++ lives (chunks G2)))) := by
  have h : lives (k :: r) = lives [k] ++ lives r := by rw [← lives_append]; rfl
  rw [chunks_mid, lives_append, lives_append, lives_append, h, List.append_assoc, List.append_assoc]

theorem lives_not {k : Ck} (h : ∀ q, k.st ≠ .live q) : lives [k] = [] := by
  unfold lives
  cases hk : k.st <;> simp [hk]
  exact absurd hk (h _)

theorem lives_around (h : ∀ q, k.st ≠ .live q) :
    lives (chunks (G1 ++ (a, l ++ k :: r) :: G2)) = livesAround G1 l r G2 := by
  rw [lives_mid, lives_not h]; rfl

/-- After coalescing next to a chunk that is not yet calm, that chunk is still there and the rest is
as before. -/
theorem relocate {kp : Ck} {G' : List (Arena × List Ck)} (hnh : NoHeld (chunks G'))
    (hkp : kp.st = .pop ∨ kp.st = .raw) {S1 S2 : List Ck} (h1 : Calm S1) (h2 : Calm S2)
    (hs : solids (chunks G') = S1 ++ kp :: S2) :
    ∃ G1 a l r G2, G' = G1 ++ (a, l ++ kp :: r) :: G2 ∧ Around G1 l r G2 ∧
      livesAround G1 l r G2 = lives S1 ++ lives S2 := by
  have hmem : kp ∈ chunks G' := (mem_solids.1 (by rw [hs]; simp)).1
  obtain ⟨G1, a, l, r, G2, rfl⟩ := chunk_split hmem
  have hlive : ∀ q, kp.st ≠ .live q := by
    intro q; rcases hkp with h | h <;> rw [h] <;> simp
  have hnc : ∀ C : List Ck, Calm C → C.filter (fun k => decide (k.st = kp.st)) = [] := by
    intro C hC
    rw [List.filter_eq_nil_iff]
    intro k hk
    rcases hC k hk with ⟨q, h⟩ | h | h <;> rcases hkp with h' | h' <;> simp [h, h']
  have hfil : (chunks (G1 ++ (a, l ++ kp :: r) :: G2)).filter (fun k => decide (k.st = kp.st)) = [kp] := by
    have : (solids (chunks (G1 ++ (a, l ++ kp :: r) :: G2))).filter (fun k => decide (k.st = kp.st)) = [kp] := by
      rw [hs, List.filter_append, hnc S1 h1, List.filter_cons, hnc S2 h2]; simp
    unfold solids at this
    rw [List.filter_filter] at this
    rw [← this]
    apply List.filter_congr
    intro k _
    rcases hkp with h | h <;> rw [h] <;> cases k.st <;> simp
  rw [chunks_mid] at hfil hs hnh
  simp only [List.filter_append, List.filter_cons, decide_true, if_true] at hfil
  have hlen := congrArg List.length hfil
  simp only [List.length_append, List.length_cons, List.length_nil] at hlen
  have e1 : (chunks G1).filter (fun k => decide (k.st = kp.st)) = [] := List.length_eq_zero_iff.1 (by omega)
  have e2 : l.filter (fun k => decide (k.st = kp.st)) = [] := List.length_eq_zero_iff.1 (by omega)
  have e3 : r.filter (fun k => decide (k.st = kp.st)) = [] := List.length_eq_zero_iff.1 (by omega)
  have e4 : (chunks G2).filter (fun k => decide (k.st = kp.st)) = [] := List.length_eq_zero_iff.1 (by omega)
  have hcalm : ∀ C : List Ck, C.filter (fun k => decide (k.st = kp.st)) = [] →
      (∀ k ∈ C, k ∈ chunks G1 ++ (l ++ kp :: r ++ chunks G2)) → Calm C := by
    intro C hC hsub k hk
    by_cases hf : k.st = .free
    · exact Or.inr (Or.inr hf)
    · have hin := mem_solids.2 ⟨hsub k hk, hf, hnh k (hsub k hk)⟩
      rw [hs] at hin
      rcases List.mem_append.1 hin with h | h
      · exact h1 k h
      · rcases List.mem_cons.1 h with rfl | h
        · rw [List.filter_eq_nil_iff] at hC
          exact absurd (decide_eq_true rfl) (hC k hk)
        · exact h2 k h
  refine ⟨G1, a, l, r, G2, rfl, ⟨hcalm _ e1 ?_, hcalm _ e2 ?_, hcalm _ e3 ?_, hcalm _ e4 ?_⟩, ?_⟩
  · intro k hk; simp [hk]
  · intro k hk; simp [hk]
  · intro k hk; simp [hk]
  · intro k hk; simp [hk]
  · have h := lives_around (G1 := G1) (G2 := G2) (a := a) (l := l) (r := r) hlive
    rw [chunks_mid] at h
    rw [← h, ← lives_solids, hs, lives_append]
    congr 1
    rw [← List.singleton_append, lives_append, lives_not hlive]; rfl

/-- A free chunk off its list. -/
theorem unfree_spec (hp : Pre c R s (G1 ++ (a, l ++ k :: r) :: G2)) (hk : k.st = .free) :
    Pre c R (unfree s (bucketIndex c k.size) k.p)
      (G1 ++ (a, l ++ { k with st := .held k.size } :: r) :: G2) := by
  obtain ⟨h, ha⟩ := hp.at
  refine hp.restate (h' := h) ?_ rfl rfl rfl rfl ?_ ?_ (fun h => by cases h) ?_ ?_ ?_ ?_
  · funext y
    rw [put_hdr]
    split
    · next h => rw [h]; exact ha.hdr
    · rfl
  · unfold Ck.fsz; rw [hk]
  · refine ⟨ha.ok.size, ?_, ?_, ha.ok.mmap, ha.ok.prevFree, ha.ok.prevSz, fun r hr => by cases hr⟩
    · rw [ha.ok.freed, hk]; rfl
    · rw [ha.ok.delay, hk]; rfl
  · intro b X hX
    rw [fr_cons_free hk, List.append_assoc] at hX
    rw [fr_cons_not (by intro h; cases h)]
    exact erase_free b _ hX
  · intro X hX
    rw [dl_cons_not (by rw [hk]; intro h; cases h)] at hX
    rw [dl_cons_not (by intro h; cases h)]; exact hX
  · rw [dl_cons_not (k := k) (by rw [hk]; intro h; cases h),
      dl_cons_not (k := { k with st := .held k.size }) (by intro h; cases h)]; rfl
  · rw [db_cons_not (k := k) (by rw [hk]; intro h; cases h),
      db_cons_not (k := { k with st := .held k.size }) (by intro h; cases h)]; rfl

/-- The rest of a chunk taken off a free list becomes a chunk of its own. -/
theorem split_pre {size : Nat} (hp : Pre c R s (G1 ++ (a, l ++ k :: r) :: G2))
    (hc : CfgOk c) (hk : k.st = .held x) (hl : lastFsz l = 0) {h : Hdr} (hh : s.hdr k.p = some h)
    (hA : c.A ≤ size) (hAd : c.A ∣ size) (hsz : size + c.A + c.inter < k.size) (d pz : Nat) :
    Pre c R ((s.put k.p { h with size := size }).put (k.p + size + c.inter)
      { h with size := k.size - (size + c.inter), reqDiff := d, prevSz := pz, freed := true })
      (G1 ++ (a, l ++ ⟨k.p, size, .pop⟩ ::
        ⟨k.p + size + c.inter, k.size - (size + c.inter), .held x⟩ :: r) :: G2) := by
  obtain ⟨h', ha⟩ := hp.at
  have := ha.hdr
  rw [hh] at this
  cases this
  have hI := inter_pos c
  have hpos := A_pos c
  have hhi := ha.hi
  have hcm := ha.commit
  have hpf : h.prevFree = false := by rw [ha.ok.prevFree, hl]; rfl
  have hfre : h.freed = true := by rw [ha.ok.freed, hk]; rfl
  have hdel : h.delay = false := by rw [ha.ok.delay, hk]; rfl
  have hne : k.p ≠ k.p + size + c.inter := by omega
  refine hp.edit ha.left ?_ (by rw [put_arenas, put_arenas, hp.arenas]; simp) hp.geo_at rfl rfl
    (Nat.le_refl _) rfl ?_ ?_ ?_ ?_ ?_ ?_
  · refine ⟨rfl, hA, hAd, ⟨{ h with size := size }, ?_, ?_⟩, (fun h => by cases h), rfl, ?_, ?_,
      ⟨{ h with size := k.size - (size + c.inter), reqDiff := d, prevSz := pz, freed := true }, ?_, ?_⟩,
      (fun h => by cases h), ?_⟩
    · rw [put_hdr, if_neg hne, put_hdr, if_pos rfl]
    · exact ⟨rfl, hfre, hdel, ha.ok.mmap, ha.ok.prevFree, ha.ok.prevSz, fun r hr => by cases hr⟩
    · simp only; omega
    · exact Nat.dvd_sub ha.dvd (Nat.dvd_add hAd (A_inter hc))
    · rw [put_hdr, if_pos rfl]
    · exact ⟨rfl, rfl, hdel, ha.ok.mmap, hpf, fun h => absurd rfl h, fun r hr => by cases hr⟩
    · have := ha.right
      rw [show k.fsz = x by unfold Ck.fsz; rw [hk]] at this
      have he : k.p + size + c.inter + (k.size - (size + c.inter)) + c.inter = k.p + k.size + c.inter := by
        omega
      simp only [he]
      refine this.frame fun y hy _ => ?_
      rw [put_hdr, if_neg (by omega), put_hdr, if_neg (by omega)]
  · intro p hpn
    rw [put_hdr, if_neg (by omega), put_hdr, if_neg (by omega)]
  · intro b X hX
    rw [fr_cons_not (by rw [hk]; intro h; cases h)] at hX
    rw [fr_cons_not (by intro h; cases h), fr_cons_not (by intro h; cases h)]; exact hX
  · intro X hX
    rw [dl_cons_not (by rw [hk]; intro h; cases h)] at hX
    rw [dl_cons_not (by intro h; cases h), dl_cons_not (by intro h; cases h)]; exact hX
  · have h1 : dl (k :: r) = dl r := dl_cons_not (by rw [hk]; intro h; cases h) r
    have h2 : ∀ k1 k2 : Ck, k1.st = .pop → k2.st = .held x → dl (k1 :: k2 :: r) = dl r := by
      intro k1 k2 e1 e2
      rw [dl_cons_not (by rw [e1]; intro h; cases h), dl_cons_not (by rw [e2]; intro h; cases h)]
    rw [h1, h2 _ _ rfl rfl]; rfl
  · have h1 : db (k :: r) = db r := db_cons_not (by rw [hk]; intro h; cases h) r
    have h2 : ∀ k1 k2 : Ck, k1.st = .pop → k2.st = .held x → db (k1 :: k2 :: r) = db r := by
      intro k1 k2 e1 e2
      rw [db_cons_not (by rw [e1]; intro h; cases h), db_cons_not (by rw [e2]; intro h; cases h)]
    rw [h1, h2 _ _ rfl rfl]; rfl
  · intro p h' g1 g2 g3 g4
    by_cases hp1 : p = k.p + size + c.inter
    · exact ⟨⟨k.p + size + c.inter, k.size - (size + c.inter), .held x⟩, by simp, hp1.symm⟩
    · by_cases hpk : p = k.p
      · exact ⟨_, List.mem_cons_self .., hpk.symm⟩
      · rw [put_hdr, if_neg hp1, put_hdr, if_neg hpk] at g3
        obtain ⟨k', hk', hkp, hkf⟩ := hp.stale_in ha.left g1 g2 g3 g4
        rcases List.mem_cons.1 hk' with rfl | hk'
        · exact absurd hkp.symm hpk
        · exact ⟨k', by simp [hk'], hkp⟩

/-- The result of allocating: a chunk whose request is not yet recorded. -/
structure Got (c : Cfg) (R : Nat → Nat) (s : St) (G : List (Arena × List Ck)) (size : Nat) (s' : St)
    (G1 : List (Arena × List Ck)) (a : Arena) (l : List Ck) (k : Ck) (r : List Ck)
    (G2 : List (Arena × List Ck)) : Prop where
  pre : Pre c R s' (G1 ++ (a, l ++ k :: r) :: G2)
  raw : k.st = .raw
  around : Around G1 l r G2
  lives : livesAround G1 l r G2 = lives (chunks G)
  size : size ≤ k.size
  mem : s'.mem = s.mem
  maps : s'.maps = s.maps

theorem findFree_spec (hc : CfgOk c) (hp : Pre c R s G) (hcalm : Calm (chunks G)) {size : Nat}
    (hA : c.A ≤ size) (hAd : c.A ∣ size) (os : Os) :
    findFree c os 0 s size = some (s, none) ∧ pick c s size = none ∨
    ∃ s' G1 a l k r G2, findFree c os 0 s size = some (s', some k.p) ∧ pick c s size = some k.p ∧
      Got c R s G size s' G1 a l k r G2 ∧ s'.delay = s.delay := by
  cases hpk : pick c s size with
  | none => left; unfold findFree; rw [hpk]; exact ⟨rfl, rfl⟩
  | some p =>
    right
    obtain ⟨G1, a, l, k, r, G2, rfl, rfl, hk, hb, hsz⟩ := pick_spec hp hpk
    have hun := unfree_spec hp hk
    have har := hcalm.around
    obtain ⟨h, ha⟩ := hp.at
    have hl0 := ha.nofree hk
    have hlv : lives (chunks (G1 ++ (a, l ++ k :: r) :: G2)) = livesAround G1 l r G2 :=
      lives_around (by rw [hk]; simp)
    have hff : findFree c os 0 s size =
        match (if h.size > size + c.A + c.inter then
          splitPiece c os 0 (unfree s (bucketIndex c k.size) k.p) k.p (k.p + size + c.inter)
            (h.size - (size + c.inter)) size
          else some (unfree s (bucketIndex c k.size) k.p)) with
        | none => none
        | some s => match s.hdr k.p with
          | none => none
          | some h => takeIt c 0 s k.p h := by
      unfold findFree takeIt
      simp only [hpk, ← hb, ha.hdr]
      rfl
    rw [hff, ha.ok.size]
    by_cases hs : k.size > size + c.A + c.inter
    · rw [if_pos hs]
      have hu1 : u32 size = size := by
        unfold u32; rw [Nat.mod_eq_of_lt]
        have := ha.span; have := ha.hi; have := ha.base; have := ha.commit; have := ha.lo; omega
      have hu2 : u32 (k.size - (size + c.inter)) = k.size - (size + c.inter) := by
        unfold u32; rw [Nat.mod_eq_of_lt]
        have := ha.span; have := ha.hi; have := ha.base; have := ha.commit; have := ha.lo; omega
      have hsp := fun d pz => split_pre (h := h) hun hc rfl hl0 ha.hdr hA hAd hs d pz
      have hsq : ∃ pz, splitPiece c os 0 (unfree s (bucketIndex c k.size) k.p) k.p
          (k.p + size + c.inter) (k.size - (size + c.inter)) size =
          coalesceAdd c os 0 (((unfree s (bucketIndex c k.size) k.p).put k.p { h with size := size }).put
            (k.p + size + c.inter)
            { h with size := k.size - (size + c.inter), reqDiff := 0, prevSz := pz, freed := true })
            (k.p + size + c.inter) := by
        unfold splitPiece
        simp only [unfree_hdr, ha.hdr, hu1, hu2]
        exact ⟨_, rfl⟩
      obtain ⟨pz, hsq⟩ := hsq
      rw [hsq]
      have hsp' := hsp 0 pz
      rw [show G1 ++ (a, l ++ (⟨k.p, size, .pop⟩ : Ck) ::
        ⟨k.p + size + c.inter, k.size - (size + c.inter), .held k.size⟩ :: r) :: G2 =
        G1 ++ (a, (l ++ [⟨k.p, size, .pop⟩]) ++
        ⟨k.p + size + c.inter, k.size - (size + c.inter), .held k.size⟩ :: r) :: G2 by simp] at hsp'
      obtain ⟨s', G', e, S, P, nh, so⟩ := coalesceAdd_spec hc hsp' (Nat.zero_le _) rfl
        (by
          intro k' hk' x'
          rcases List.mem_append.1 hk' with h | h
          · exact har.l.quiet.noHeld k' h x'
          · rcases List.mem_singleton.1 h with rfl
            intro h; cases h)
        har.r.quiet har.g1.quiet.noHeld har.g2.quiet.noHeld os
      simp only at e
      rw [e]
      have hso : solids (chunks G') = (solids (chunks G1) ++ solids l) ++ ⟨k.p, size, .pop⟩ ::
          (solids r ++ solids (chunks G2)) := by
        rw [so, chunks_mid]
        simp only [solids_append]
        rw [solids_held (k := ⟨k.p + size + c.inter, _, .held k.size⟩) rfl]
        simp [solids]
      obtain ⟨G1', a', l', r', G2', rfl, har', hlv'⟩ := relocate nh (Or.inl rfl)
        (Calm.append.2 ⟨har.g1.solids, har.l.solids⟩) (Calm.append.2 ⟨har.r.solids, har.g2.solids⟩) hso
      obtain ⟨h2, ha2⟩ := P.at
      obtain ⟨s'', a'', e2, A2, S2, P2⟩ := takeIt_spec P (Nat.zero_le _) (Or.inl rfl) ha2.hdr
      have hd2 : s'.hdr k.p = some h2 := ha2.hdr
      simp only [hd2]
      refine ⟨s'', G1', a'', l', ⟨k.p, size, .raw⟩, r', G2', e2, rfl, ⟨P2, rfl, har', ?_, Nat.le_refl _,
        S2.mem.trans S.mem, S2.maps.trans S.maps⟩, S2.delay.trans S.delay⟩
      rw [hlv', hlv]
      simp only [lives_append, lives_solids, livesAround, List.append_assoc]
    · rw [if_neg hs]
      have hd2 : (unfree s (bucketIndex c k.size) k.p).hdr k.p = some h := ha.hdr
      simp only [hd2]
      obtain ⟨s', a', e, A1, S, P⟩ := takeIt_spec hun (Nat.zero_le _) (Or.inr ⟨_, rfl⟩) hd2
      exact ⟨s', G1, a', l, ⟨k.p, k.size, .raw⟩, r, G2, e, rfl, ⟨P, rfl, har, hlv.symm, hsz, S.mem, S.maps⟩, S.delay⟩

/-! ## New chunks at the end of an arena -/

theorem Around.of_calm (h : Calm (chunks (G1 ++ (a, l) :: G2))) : Around G1 l [] G2 := by
  rw [chunks_mid, Calm.append, Calm.append] at h
  exact ⟨h.1, h.2.1, (fun k hk => by cases hk), h.2.2⟩

theorem carve_spec (hp : Pre c R s (G1 ++ (a, l) :: G2))
    (hcalm : Calm (chunks (G1 ++ (a, l) :: G2))) {size : Nat}
    (hA : c.A ≤ size) (hAd : c.A ∣ size) (hroom : a.next + size + c.inter ≤ a.commit) :
    ∃ s' a', carve c s G1.length size = some (s', a.next) ∧
      Got c R s (G1 ++ (a, l) :: G2) size s' G1 a' l ⟨a.next, size, .raw⟩ [] G2 ∧
      s'.delay = s.delay := by
  have hgeo := hp.geo_at
  have hrep := hp.rep (a, l) (by simp)
  simp only at hrep
  have hlast := hrep.last
  have hI := inter_pos c
  have hpos := A_pos c
  have h1 := hgeo.span
  have h2 := hgeo.base
  have h3 := hgeo.next
  have h4 := hgeo.commit
  have hu : u32 (size + c.inter) = size + c.inter := by
    unfold u32; rw [Nat.mod_eq_of_lt]; omega
  have hai : s.arenas[G1.length]? = some a := by
    rw [hp.arenas, List.map_append, List.getElem?_append_right (by simp)]; simp
  have hp' : Pre c R s (G1 ++ (a, l ++ []) :: G2) := by simpa using hp
  have hgeo' : AGeo c { a with next := a.next + (size + c.inter), prevFree := 0 } :=
    ⟨hgeo.start, hgeo.base, by simp only; omega, by simp only; omega, hgeo.pages, hgeo.span⟩
  -- the final state, for any header of the new chunk that fits
  have key : ∀ (s' : St) (h : Hdr), s'.hdr = (s.put a.next h).hdr → s'.maps = s.maps →
      s'.free = s.free → s'.delay = s.delay → s'.dChunks = s.dChunks → s'.dBytes = s.dBytes →
      s'.arenas = G1.map Prod.fst ++ { a with next := a.next + (size + c.inter), prevFree := 0 } ::
        G2.map Prod.fst →
      HdrOk h ⟨a.next, size, .raw⟩ (lastFsz l) →
      Pre c R s' (G1 ++ ({ a with next := a.next + (size + c.inter), prevFree := 0 },
        l ++ [⟨a.next, size, .raw⟩]) :: G2) := by
    intro s' h e1 e2 e3 e4 e5 e6 e7 hok
    refine hp'.edit (m := a.next) (pm := lastFsz l) (by rw [← hlast]; exact hrep) ?_ e7 hgeo' rfl rfl
      (Nat.le_refl _) e2 ?_ ?_ ?_ ?_ ?_ ?_
    · refine ⟨rfl, hA, hAd, ⟨h, ?_, hok⟩, (fun h => by cases h), ?_, rfl⟩
      · rw [e1, put_hdr, if_pos rfl]
      · simp only; omega
    · intro p hpn
      rw [e1, put_hdr, if_neg (by omega)]
    · intro b X hX; rw [e3]; exact hX
    · intro X hX; rw [e4]; exact hX
    · rw [e5]; rfl
    · rw [e6]; rfl
    · intro p h' g1 g2 g3 g4
      by_cases hpk : p = a.next
      · exact ⟨_, List.mem_cons_self .., hpk.symm⟩
      · rw [e1, put_hdr, if_neg hpk] at g3
        obtain ⟨k', hk', -⟩ := hp'.stale_in hrep g1 g2 g3 g4
        cases hk'
  have hmod : ∀ f : Arena → Arena, s.arenas.modify G1.length f =
      G1.map Prod.fst ++ f a :: G2.map Prod.fst := fun f => hp.modify f
  have har := Around.of_calm hcalm
  have hlv : livesAround G1 l [] G2 = lives (chunks (G1 ++ (a, l) :: G2)) := by
    rw [chunks_mid, lives_append, lives_append]; rfl
  unfold carve
  simp only [hai, hu]
  by_cases hpf : a.prevFree = 0
  · rw [if_neg (by simp [hpf])]
    refine ⟨_, _, rfl, ⟨key _ { size := size } rfl rfl rfl rfl rfl rfl ?_ ?_, rfl, har, hlv,
      Nat.le_refl _, rfl, rfl⟩, rfl⟩
    · rw [hmod]; rw [hpf]
    · rw [hpf] at hlast
      refine ⟨rfl, rfl, rfl, rfl, ?_, fun h => absurd hlast.symm h, fun r hr => by cases hr⟩
      rw [← hlast]; rfl
  · rw [if_pos hpf]
    obtain ⟨l0, kf, rfl, hkf, hsz⟩ := last_free har.l.quiet.noHeld (by rw [← hlast]; exact hpf)
    have hp2 : Pre c R s (G1 ++ (a, l0 ++ kf :: []) :: G2) := hp
    obtain ⟨hf, haf⟩ := hp2.at
    have h5 := haf.right.1
    have h6 := haf.lo
    have h7 := haf.min
    have hq : a.next - c.inter - a.prevFree = kf.p := by rw [hlast, hsz]; omega
    have hne : kf.p ≠ a.next := by omega
    have hfr : hf.freed = true := by rw [haf.ok.freed, hkf]; rfl
    simp only [hq, put_hdr, if_neg hne, haf.hdr, hfr, if_true]
    have hset : setPrev c G1.length ({ s.put a.next { size := size } with
        arenas := s.arenas.modify G1.length fun a => { a with next := a.next + (size + c.inter) } })
        kf.p = some (({ s.put a.next { size := size } with
        arenas := s.arenas.modify G1.length fun a => { a with next := a.next + (size + c.inter) } }).put
        a.next { size := size, prevFree := true, prevSz := kf.size }) := by
      have hfa : findArena (((s.arenas.modify G1.length fun a =>
          { a with next := a.next + (size + c.inter) }).drop G1.length)) G1.length kf.p =
          some (G1.length, { a with next := a.next + (size + c.inter) }) := by
        rw [hmod, List.drop_append_of_le_length (by simp), List.drop_of_length_le (by simp)]
        simp only [List.nil_append, findArena]
        rw [if_pos]
        simp only [Arena.has, Bool.and_eq_true, decide_eq_true_eq]
        omega
      have hdv : (if kf.size / c.A ≤ 65535 then kf.size / c.A * c.A else kf.size) = kf.size := by
        split
        · exact Nat.div_mul_cancel haf.dvd
        · rfl
      unfold setPrev
      simp only [put_hdr, if_neg hne, haf.hdr, haf.ok.size]
      unfold nextForward
      simp only [hfa]
      rw [if_pos (by omega)]
      simp only [h5, if_true, Bool.false_and, Bool.false_eq_true, if_false, hdv]
    simp only [hset]
    refine ⟨_, _, rfl, ⟨key _ { size := size, prevFree := true, prevSz := kf.size } ?_ rfl rfl rfl rfl
      rfl ?_ ?_, rfl, har, hlv, Nat.le_refl _, rfl, rfl⟩, rfl⟩
    · funext y
      simp only [St.put]
      split <;> rfl
    · simp only [put_arenas]
      rw [hmod]
      have := modify_mid (G1.map Prod.fst) (G2.map Prod.fst)
        { a with next := a.next + (size + c.inter) } fun a => { a with prevFree := 0 }
      rw [List.length_map] at this
      exact this
    · refine ⟨rfl, rfl, rfl, rfl, ?_, fun _ => hsz.symm, fun r hr => by cases hr⟩
      rw [hsz, eq_comm]
      exact decide_eq_true (by omega)

theorem roomFor_some {add : Nat} : ∀ {as : List Arena} {m i : Nat}, roomFor add as m = some i →
    m ≤ i ∧ ∃ b, as[i - m]? = some b ∧ b.next + add ≤ b.commit := by
  intro as
  induction as with
  | nil => intro m i h; cases h
  | cons a as ih =>
    intro m i h
    unfold roomFor at h
    split at h
    · next hc =>
      cases h
      exact ⟨Nat.le_refl _, a, by simp, hc⟩
    · obtain ⟨h1, b, h2, h3⟩ := ih h
      refine ⟨by omega, b, ?_, h3⟩
      rw [show i - m = (i - (m + 1)) + 1 by omega, List.getElem?_cons_succ]
      exact h2

theorem Pre.nth (hp : Pre c R s G) {i : Nat} {b : Arena} (h : s.arenas[i]? = some b) :
    ∃ G1 l G2, G = G1 ++ (b, l) :: G2 ∧ i = G1.length := by
  rw [hp.arenas, List.getElem?_map, Option.map_eq_some_iff] at h
  obtain ⟨g, hg, rfl⟩ := h
  obtain ⟨hi, rfl⟩ := List.getElem?_eq_some_iff.1 hg
  refine ⟨G.take i, G[i].2, G.drop (i + 1), ?_, by simp; omega⟩
  rw [show (G[i].1, G[i].2) = G[i] from rfl, List.getElem_cons_drop, List.take_append_drop]

/-! ## More memory from the system -/

theorem Pre.reg_pos (hp : Pre c R s G) : ∀ x ∈ Al.regs s.arenas s.maps, x.1 < x.2 := by
  intro x hx
  rw [hp.arenas] at hx
  rcases List.mem_append.1 hx with h | h
  · obtain ⟨a, ha, rfl⟩ := List.mem_map.1 h
    obtain ⟨g, hg, rfl⟩ := List.mem_map.1 ha
    have h1 := (hp.geo g hg).base
    have h2 := (hp.geo g hg).next
    have h3 := (hp.geo g hg).commit
    have h4 := inter_pos c
    simp only; omega
  · obtain ⟨m, hm, rfl⟩ := List.mem_map.1 h
    have h1 := (hp.maps m hm).pos
    have h2 := (hp.maps m hm).fits
    simp only; omega

/-- The last arena grows in place. -/
theorem Pre.grow (hp : Pre c R s (G1 ++ [(a, l)])) {e : Nat} {s' : St}
    (hs : s' = { s with arenas := s.arenas.modify G1.length fun a => { a with commit := e } })
    (hcommit : a.commit ≤ e) (hpage : page ∣ e) (hspan : e < a.base + 2 ^ 32)
    (hnew : ∀ x ∈ Al.regs s.arenas s.maps, Disj x (a.commit, e)) :
    Pre c R s' (G1 ++ [({ a with commit := e }, l)]) := by
  subst hs
  have hgeo := hp.geo_at
  have har : (s.arenas.modify G1.length fun a => { a with commit := e }) =
      G1.map Prod.fst ++ [{ a with commit := e }] := hp.modify _
  have hch : chunks (G1 ++ [({ a with commit := e }, l)]) = chunks (G1 ++ [(a, l)]) := by
    rw [chunks_mid, chunks_mid]
  have hin : ∀ g, g ∈ G1 ++ [({ a with commit := e }, l)] → g ∈ G1 ∨ g = ({ a with commit := e }, l) := by
    intro g hg
    rcases List.mem_append.1 hg with h | h
    · exact Or.inl h
    · exact Or.inr (List.mem_singleton.1 h)
  constructor
  · rw [har]; simp
  · simp
  · intro g hg
    rcases hin g hg with h | rfl
    · exact hp.geo g (by simp [h])
    · exact ⟨hgeo.start, hgeo.base, hgeo.next, Nat.le_trans hgeo.commit hcommit, hpage, hspan⟩
  · intro g hg
    rcases hin g hg with h | rfl
    · exact hp.rep g (by simp [h])
    · exact hp.rep (a, l) (by simp)
  · have h := hp.regs
    have hpos := hp.reg_pos
    simp only [har]
    rw [hp.arenas] at h hnew hpos
    unfold Al.regs at h hnew hpos ⊢
    simp only [List.map_append, List.map_cons, List.map_nil, List.append_assoc, List.cons_append,
      List.nil_append, List.pairwise_append, List.pairwise_cons, List.mem_append, List.mem_cons] at h hnew hpos ⊢
    obtain ⟨h1, ⟨h2, h3⟩, h4⟩ := h
    have hb := hgeo.base
    have hn := hgeo.next
    have hcm := hgeo.commit
    refine ⟨h1, ⟨?_, h3⟩, ?_⟩
    · intro x hx
      have g1 := h2 x hx
      have g2 := hnew x (Or.inr (Or.inr hx))
      have g3 := hpos x (Or.inr (Or.inr hx))
      simp only [Disj] at g1 g2 ⊢
      omega
    · intro x hx y hy
      rcases hy with rfl | hy
      · have g1 := h4 x hx _ (Or.inl rfl)
        have g2 := hnew x (Or.inl hx)
        have g3 := hpos x (Or.inl hx)
        simp only [Disj] at g1 g2 ⊢
        omega
      · exact h4 x hx y (Or.inr hy)
  · intro b; rw [hch]; exact hp.free b
  · rw [hch]; exact hp.delay
  · rw [hch]; exact hp.dChunks
  · rw [hch]; exact hp.dBytes
  · exact hp.maps
  · rw [hch]; exact hp.stale
  · rw [hch]; exact hp.dz

/-- A new arena. -/
theorem Pre.addArena (hc : CfgOk c) (hp : Pre c R s G) {b : Nat}
    (hpage : page ∣ b)
    (hnew : ∀ x ∈ Al.regs s.arenas s.maps, Disj x (b, b + arenaSize)) :
    Pre c R { s.wipe b (b + arenaSize) with arenas := s.arenas ++ [c.newArena b] }
      (G ++ [(c.newArena b, [])]) := by
  have hch : chunks (G ++ [(c.newArena b, [])]) = chunks G := by simp [chunks]
  have hA := A_pos c
  have hAp : c.A ∣ page := by unfold Cfg.A page; split <;> decide
  have hfit := hc.subFits
  have hps : page ≤ arenaSize := by decide
  have hI := inter_pos c
  have hkeep : ∀ x ∈ Al.regs s.arenas s.maps, ∀ y, x.1 ≤ y → y < x.2 →
      (s.wipe b (b + arenaSize)).hdr y = s.hdr y := by
    intro x hx y h1 h2
    have := hnew x hx
    simp only [Disj] at this
    simp only [St.wipe]
    rw [if_neg (by omega)]
  constructor
  · simp only; rw [hp.arenas]; simp
  · simp
  · intro g hg
    rcases List.mem_append.1 hg with h | h
    · exact hp.geo g h
    · rcases List.mem_singleton.1 h with rfl
      refine ⟨?_, ?_, Nat.le_refl _, ?_, ?_, ?_⟩
      · exact Nat.dvd_add (Nat.dvd_add (Nat.dvd_trans hAp hpage) hc.subHdr) (A_inter hc)
      · simp only [Cfg.newArena]; omega
      · simp only [Cfg.newArena]; omega
      · exact Nat.dvd_add hpage (by decide)
      · simp only [Cfg.newArena]
        have : arenaSize < 2 ^ 32 := by decide
        omega
  · intro g hg
    rcases List.mem_append.1 hg with h | h
    · refine (hp.rep g h).frame fun y h1 h2 => ?_
      have h3 := (hp.geo g h).base
      have h4 := (hp.geo g h).commit
      refine hkeep (g.1.base, g.1.commit) ?_ y (by simp only; omega) (by simp only; omega)
      rw [hp.arenas]
      exact List.mem_append_left _ (List.mem_map_of_mem (List.mem_map_of_mem h))
    · rcases List.mem_singleton.1 h with rfl
      exact ⟨rfl, rfl⟩
  · have h := hp.regs
    simp only [St.wipe]
    unfold Al.regs at h hnew ⊢
    rw [List.pairwise_append] at h
    rw [List.map_append, List.append_assoc, List.pairwise_append]
    refine ⟨h.1, ?_, ?_⟩
    · simp only [List.map_cons, List.map_nil, List.cons_append, List.nil_append, List.pairwise_cons]
      refine ⟨fun x hx => ?_, h.2.1⟩
      exact Or.symm (hnew x (List.mem_append_right _ hx))
    · intro x hx y hy
      simp only [List.map_cons, List.map_nil, List.cons_append, List.nil_append, List.mem_cons] at hy
      rcases hy with rfl | hy
      · exact hnew x (List.mem_append_left _ hx)
      · exact h.2.2 x hx y hy
  · intro i; rw [hch]; exact hp.free i
  · rw [hch]; exact hp.delay
  · rw [hch]; exact hp.dChunks
  · rw [hch]; exact hp.dBytes
  · intro m hm
    have h1 := hp.maps m hm
    have hf : (s.wipe b (b + arenaSize)).hdr m.ptr = s.hdr m.ptr := by
      refine hkeep (m.base, m.base + m.size) ?_ _ (Nat.le_of_lt h1.pos) h1.fits
      exact List.mem_append_right _ (List.mem_map.2 ⟨m, hm, rfl⟩)
    exact { h1 with hdr := by simp only; rw [hf]; exact h1.hdr }
  · intro p h hh hf
    rw [hch]
    have hh' : (if b ≤ p ∧ p < b + arenaSize then none else s.hdr p) = some h := hh
    split at hh'
    · cases hh'
    · exact hp.stale p h hh' hf
  · rw [hch]; exact hp.dz

/-- What the operating system promises for one call that needs `add` bytes: grown or new memory is
unused, page aligned and large enough; an arena stays below 4 GB. -/
structure OsOk (c : Cfg) (s : St) (os : Os) (add : Nat) : Prop where
  ext : ∀ e, os.ext = some e → ∀ a, s.arenas.getLast? = some a →
    a.next + add ≤ e ∧ a.commit ≤ e ∧ page ∣ e ∧ e < a.base + 2 ^ 32 ∧
      ∀ x ∈ regs s.arenas s.maps, Disj x (a.commit, e)
  arena : ∀ b, os.arena = some b →
    page ∣ b ∧ ∀ x ∈ regs s.arenas s.maps, Disj x (b, b + arenaSize)
  one : os.ext = none → os.arena = none → s.arenas.length = 1

theorem giveUp_spec (hc : CfgOk c) {size : Nat} (hA : c.A ≤ size) (hAd : c.A ∣ size) (os : Os) :
    ∀ (m : Nat) {s : St} {G : List (Arena × List Ck)}, Pre c R s G → Calm (chunks G) →
    (∃ s' G', giveUp c os 0 size m s = some (s', none) ∧ Pre c R s' G' ∧ Calm (chunks G') ∧
      s'.mem = s.mem ∧ s'.maps = s.maps ∧ lives (chunks G') = lives (chunks G) ∧
      ∃ d, s.delay = d ++ s'.delay) ∨
    ∃ s' G1 a l k r G2, giveUp c os 0 size m s = some (s', some k.p) ∧
      Got c R s G size s' G1 a l k r G2 ∧ ∃ d, s.delay = d ++ s'.delay := by
  intro m
  induction m with
  | zero =>
    intro s G hp hcalm
    left
    exact ⟨s, G, rfl, hp, hcalm, rfl, rfl, rfl, [], rfl⟩
  | succ m ih =>
    intro s G hp hcalm
    unfold giveUp
    by_cases hb : size ≤ s.dBytes
    · rw [if_pos hb]
      cases hd : s.delay with
      | nil => left; exact ⟨s, G, rfl, hp, hcalm, rfl, rfl, rfl, [], by rw [hd]; rfl⟩
      | cons p rest =>
        obtain ⟨s1, G1, e1, P1, C1, m1, mp1, d1, l1, -⟩ := shift_spec hc hp hcalm hd os
        simp only [e1]
        rcases findFree_spec hc P1 C1 hA hAd os with ⟨e2, -⟩ | ⟨s2, H1, a2, l2, k2, r2, H2, e2, -, g2, d2⟩
        · simp only [e2]
          rcases ih P1 C1 with ⟨s3, G3, e3, P3, C3, m3, mp3, l3, d, hd3⟩ |
            ⟨s3, H1, a3, l3, k3, r3, H2, e3, g3, d, hd3⟩
          · left
            exact ⟨s3, G3, e3, P3, C3, m3.trans m1, mp3.trans mp1, l3.trans l1, p :: d, by
              rw [List.cons_append, ← hd3, d1]⟩
          · right
            exact ⟨s3, H1, a3, l3, k3, r3, H2, e3, ⟨g3.pre, g3.raw, g3.around, g3.lives.trans l1,
              g3.size, g3.mem.trans m1, g3.maps.trans mp1⟩, p :: d, by
              rw [List.cons_append, ← hd3, d1]⟩
        · simp only [e2]
          right
          exact ⟨s2, H1, a2, l2, k2, r2, H2, rfl, ⟨g2.pre, g2.raw, g2.around, g2.lives.trans l1,
            g2.size, g2.mem.trans m1, g2.maps.trans mp1⟩, [p], by rw [d2, d1]; rfl⟩
    · rw [if_neg hb]
      left
      exact ⟨s, G, rfl, hp, hcalm, rfl, rfl, rfl, [], rfl⟩

theorem newChunk_spec (hc : CfgOk c) (hp : Pre c R s G) (hcalm : Calm (chunks G)) {size : Nat}
    (hA : c.A ≤ size) (hAd : c.A ∣ size) {os : Os} (hos : OsOk c s os (size + c.inter))
    (hsz : size + c.inter < 2 ^ 32) (hroom : c.subHdr + c.inter + size + c.inter ≤ arenaSize) :
    (∃ s' G', newChunk c os s size = some (s', none) ∧ Pre c R s' G' ∧ Calm (chunks G') ∧
      s'.mem = s.mem ∧ s'.maps = s.maps ∧ lives (chunks G') = lives (chunks G) ∧
      os.ext = none ∧ os.arena = none ∧ ∃ d, s.delay = d ++ s'.delay) ∨
    ∃ s' G1 a l k r G2 i, newChunk c os s size = some (s', some (k.p, i)) ∧ i ≤ G1.length ∧
      Got c R s G size s' G1 a l k r G2 ∧
      ∃ d, s.delay = d ++ s'.delay ∧ (os.ext ≠ none ∨ os.arena ≠ none → d = []) := by
  have hu : u32 (size + c.inter) = size + c.inter := by unfold u32; rw [Nat.mod_eq_of_lt hsz]
  unfold newChunk
  simp only [hu]
  cases hr : roomFor (size + c.inter) s.arenas 0 with
  | some i =>
    right
    obtain ⟨-, b, h2, h3⟩ := roomFor_some hr
    rw [Nat.sub_zero] at h2
    obtain ⟨G1, l, G2, rfl, rfl⟩ := hp.nth h2
    obtain ⟨s', a', e, g, d⟩ := carve_spec hp hcalm hA hAd (by omega)
    simp only [e]
    exact ⟨s', G1, a', l, _, [], G2, G1.length, rfl, Nat.le_refl _, g, [], by rw [d]; rfl, fun _ => rfl⟩
  | none =>
    simp only []
    unfold extend
    cases hext : os.ext with
    | some e =>
      right
      simp only []
      obtain ⟨G1, g, rfl⟩ : ∃ G1 g, G = G1 ++ [g] :=
        ⟨G.dropLast, G.getLast hp.ne, (List.dropLast_append_getLast hp.ne).symm⟩
      obtain ⟨a, l⟩ := g
      have hlen : s.arenas.length - 1 = G1.length := by rw [hp.arenas]; simp
      obtain ⟨o1, o2, o3, o4, o5⟩ := hos.ext e hext a (by rw [hp.arenas]; simp)
      have hP := hp.grow rfl o2 o3 o4 o5
      rw [hlen]
      have hcalm' : Calm (chunks (G1 ++ [({ a with commit := e }, l)])) := by
        rw [chunks_mid] at hcalm ⊢; exact hcalm
      obtain ⟨s', a', e1, g, d⟩ := carve_spec hP hcalm' hA hAd (by simp only; omega)
      simp only [e1]
      exact ⟨s', G1, a', l, _, [], [], G1.length, rfl, Nat.le_refl _, ⟨g.pre, g.raw, g.around, by
        rw [g.lives, chunks_mid, chunks_mid], g.size, g.mem, g.maps⟩, [], by rw [d]; rfl, fun _ => rfl⟩
    | none =>
      simp only []
      cases har : os.arena with
      | some b =>
        right
        simp only []
        obtain ⟨o1, o2⟩ := hos.arena b har
        have hP := hp.addArena hc o1 o2
        have hlen : s.arenas.length = G.length := by rw [hp.arenas]; simp
        rw [hlen]
        have hch : chunks (G ++ [(c.newArena b, [])]) = chunks G := by simp [chunks]
        have hcalm' : Calm (chunks (G ++ [(c.newArena b, [])])) := by rw [hch]; exact hcalm
        obtain ⟨s', a', e1, g, d⟩ := carve_spec hP hcalm' hA hAd (by simp only [Cfg.newArena]; omega)
        simp only [e1]
        exact ⟨s', G, a', [], _, [], [], G.length, rfl, Nat.le_refl _, ⟨g.pre, g.raw, g.around, by
          rw [g.lives, hch], g.size, g.mem, g.maps⟩, [], by rw [d]; rfl, fun _ => rfl⟩
      | none =>
        simp only []
        have h1 : s.arenas.length - 1 = 0 := by rw [hos.one hext har]
        rw [h1]
        rcases giveUp_spec hc hA hAd os s.delay.length hp hcalm with
          ⟨s', G', e, P, C, m, mp, lv, d⟩ | ⟨s', G1, a, l, k, r, G2, e, g, d⟩
        · left
          simp only [e]
          exact ⟨s', G', rfl, P, C, m, mp, lv, trivial, trivial, d⟩
        · right
          simp only [e]
          obtain ⟨d, hd⟩ := d
          exact ⟨s', G1, a, l, k, r, G2, 0, rfl, Nat.zero_le _, g, d, hd, fun h => by
            rcases h with h | h
            · exact absurd rfl h
            · exact absurd rfl h⟩

end Verif.Al
