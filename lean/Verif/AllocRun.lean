import Verif.AllocTop

/-!
# Ledger and quarantine of the allocator

The state is related to a ledger of blocks in use (address and size asked for) and to the queue of
freed blocks (address and size).
-/
namespace Verif.Al

variable {c : Cfg} {R : Nat → Nat} {s : St} {G G1 G2 : List (Arena × List Ck)} {a : Arena}
  {l r : List Ck} {k : Ck}

/-- The state implements a ledger `L` of blocks in use and a queue `Q` of freed blocks. -/
def Inv (c : Cfg) (s : St) (L Q : List (Nat × Nat)) : Prop :=
  ∃ R G, Pre c R s G ∧ Calm (chunks G) ∧ L.Perm (blocks R s G) ∧ Q = quar R s

/-! ## Where blocks lie -/

/-- At least `g` bytes between two blocks. -/
def Apart (g : Nat) (x y : Nat × Nat) : Prop := x.1 + x.2 + g ≤ y.1 ∨ y.1 + y.2 + g ≤ x.1

theorem Apart.symm {g : Nat} {x y : Nat × Nat} (h : Apart g x y) : Apart g y x := Or.symm h

theorem Apart.shrink {g : Nat} {x y x' y' : Nat × Nat} (h : Apart g x y) (h1 : x'.1 = x.1)
    (h2 : y'.1 = y.1) (h3 : x'.2 ≤ x.2) (h4 : y'.2 ≤ y.2) : Apart g x' y' := by
  unfold Apart at *
  omega

theorem mh_inter (c : Cfg) : c.hs + c.rbh ≤ c.rz + c.hbr ∧ c.inter ≤ c.rz + (c.mh + c.rz + c.hbr) := by
  unfold Cfg.inter Cfg.hbr Cfg.rbh
  cases c.shared
  · simp; omega
  · simp only [Bool.not_true, Bool.false_eq_true, if_false, if_true, Nat.add_zero]
    split <;> omega

/-- A block of a chunk or mapping with the space it occupies. -/
def extents (s : St) (G : List (Arena × List Ck)) : List (Nat × Nat) :=
  (chunks G).map (fun k => (k.p, k.size)) ++
    s.maps.map fun m => (m.ptr, match s.hdr m.ptr with | some h => h.size | none => 0)

theorem Pre.chunks_apart (hp : Pre c R s G) :
    (chunks G).Pairwise fun k k' => Apart c.inter (k.p, k.size) (k'.p, k'.size) := by
  unfold chunks
  rw [List.pairwise_flatMap]
  constructor
  · intro g hg
    exact (hp.rep g hg).pairwise.imp fun h => Or.inl h
  · have h := hp.regs
    rw [hp.arenas] at h
    unfold Al.regs at h
    rw [List.pairwise_append] at h
    have h := h.1
    rw [List.map_map, List.pairwise_map] at h
    refine h.imp_of_mem ?_
    intro g g' hg hg' hd k hk k' hk'
    have h1 := hp.chunk_in hg hk
    have h2 := hp.chunk_in hg' hk'
    have h3 := (hp.geo g hg).base
    have h4 := (hp.geo g' hg').base
    simp only [Disj, Function.comp] at hd
    unfold Apart
    simp only
    omega

theorem Pre.map_space (hp : Pre c R s G) {m : Map} (hm : m ∈ s.maps) :
    ∃ h, s.hdr m.ptr = some h ∧ R m.ptr ≤ h.size ∧ m.base + c.mh + c.rz + c.hbr ≤ m.ptr ∧
      m.ptr + h.size + c.rz ≤ m.base + m.size := by
  have h := hp.maps m hm
  obtain ⟨x, h1, h2, h3, h4, h5, h6⟩ := h.hdr
  refine ⟨x, h1, ?_, h.low, h6⟩
  rw [← h5]; unfold Hdr.req; omega

theorem Pre.extents_apart (hp : Pre c R s G) : (extents s G).Pairwise (Apart c.inter) := by
  have hmh := (mh_inter c).2
  unfold extents
  rw [List.pairwise_append, List.pairwise_map, List.pairwise_map]
  refine ⟨hp.chunks_apart, ?_, ?_⟩
  · refine hp.map_region.imp_of_mem ?_
    intro m m' hm hm' hd
    obtain ⟨h, h1, -, h3, h4⟩ := hp.map_space hm
    obtain ⟨h', h1', -, h3', h4'⟩ := hp.map_space hm'
    simp only [Disj] at hd
    simp only [h1, h1', Apart]
    omega
  · intro x hx y hy
    obtain ⟨k, hk, rfl⟩ := List.mem_map.1 hx
    obtain ⟨m, hm, rfl⟩ := List.mem_map.1 hy
    obtain ⟨g, hg, hkg⟩ := List.mem_flatMap.1 hk
    have h1 := hp.chunk_in hg hkg
    obtain ⟨h, h2, -, h3, h4⟩ := hp.map_space hm
    have hd := hp.map_disj hg hm
    have hb := (hp.geo g hg).base
    simp only [Disj] at hd
    simp only [h2, Apart]
    omega

theorem lives_eq (C : List Ck) : lives C = C.filterMap fun k => match k.st with
    | .live r => some (k.p, r)
    | _ => none := rfl

theorem Pre.live_size (hp : Pre c R s G) {k : Ck} (hk : k ∈ chunks G) {q : Nat} (hq : k.st = .live q) :
    q ≤ k.size := by
  obtain ⟨g, hg, hkg⟩ := List.mem_flatMap.1 hk
  obtain ⟨h, pm, -, h2⟩ := (hp.rep g hg).hdr_mem k hkg
  exact (h2.req q hq).1

/-- The extent of a block in use or in quarantine. -/
theorem Pre.blocks_apart (hp : Pre c R s G) : (blocks R s G).Pairwise (Apart c.inter) := by
  have h := hp.extents_apart
  unfold extents at h
  rw [List.pairwise_append, List.pairwise_map, List.pairwise_map] at h
  obtain ⟨h1, h2, h3⟩ := h
  have hlive : ∀ x ∈ lives (chunks G), ∃ k ∈ chunks G, k.p = x.1 ∧ x.2 ≤ k.size := by
    intro x hx
    obtain ⟨k, hk, he⟩ := List.mem_filterMap.1 hx
    cases hs : k.st <;> rw [hs] at he <;> simp only [reduceCtorEq, Option.some.injEq] at he
    subst he
    exact ⟨k, hk, rfl, hp.live_size hk hs⟩
  unfold blocks
  rw [List.pairwise_append, List.pairwise_map]
  refine ⟨?_, ?_, ?_⟩
  · rw [lives_eq, List.pairwise_filterMap]
    refine h1.imp_of_mem ?_
    intro k k' hk hk' ha x hx y hy
    cases hs : k.st <;> rw [hs] at hx <;> simp only [reduceCtorEq, Option.some.injEq] at hx
    cases hs' : k'.st <;> rw [hs'] at hy <;> simp only [reduceCtorEq, Option.some.injEq] at hy
    subst hx hy
    exact ha.shrink rfl rfl (hp.live_size hk hs) (hp.live_size hk' hs')
  · refine h2.imp_of_mem ?_
    intro m m' hm hm' ha
    obtain ⟨h, e1, e2, -⟩ := hp.map_space hm
    obtain ⟨h', e1', e2', -⟩ := hp.map_space hm'
    rw [e1, e1'] at ha
    exact ha.shrink rfl rfl e2 e2'
  · intro x hx y hy
    obtain ⟨k, hk, e1, e2⟩ := hlive x hx
    obtain ⟨m, hm, rfl⟩ := List.mem_map.1 hy
    obtain ⟨h, e3, e4, -⟩ := hp.map_space hm
    have := h3 (k.p, k.size) (List.mem_map.2 ⟨k, hk, rfl⟩) _ (List.mem_map.2 ⟨m, hm, rfl⟩)
    rw [e3] at this
    exact this.shrink e1.symm rfl e2 e4

theorem Pre.quar_mem (hp : Pre c R s G) {x : Nat × Nat} (hx : x ∈ quar R s) :
    ∃ k ∈ chunks G, k.st = .delay ∧ x = (k.p, k.size) := by
  obtain ⟨p, hpd, rfl⟩ := List.mem_map.1 hx
  obtain ⟨_, _, _, k, _, _, hG, rfl, hd⟩ := hp.delay_split hpd
  have hk : k ∈ chunks G := by rw [hG, chunks_mid]; simp
  exact ⟨k, hk, hd, by rw [hp.dz k hk hd]⟩

/-- A block in use is apart from every block in quarantine. -/
theorem Pre.quar_apart (hp : Pre c R s G) {x y : Nat × Nat} (hx : x ∈ quar R s)
    (hy : y ∈ blocks R s G) : Apart c.inter x y := by
  obtain ⟨k, hk, hd, rfl⟩ := hp.quar_mem hx
  have h := hp.extents_apart
  unfold extents at h
  rw [List.pairwise_append, List.pairwise_map] at h
  obtain ⟨h1, -, h3⟩ := h
  rcases List.mem_append.1 hy with hy | hy
  · obtain ⟨k', hk', he⟩ := List.mem_filterMap.1 hy
    cases hs : k'.st <;> rw [hs] at he <;> simp only [reduceCtorEq, Option.some.injEq] at he
    subst he
    have : Std.Symm fun k k' : Ck => Apart c.inter (k.p, k.size) (k'.p, k'.size) :=
      ⟨fun _ _ h => h.symm⟩
    have hne : k ≠ k' := by rintro rfl; rw [hs] at hd; cases hd
    exact (h1.forall hk hk' hne).shrink rfl rfl (Nat.le_refl _) (hp.live_size hk' hs)
  · obtain ⟨m, hm, rfl⟩ := List.mem_map.1 hy
    obtain ⟨h, e3, e4, -⟩ := hp.map_space hm
    have := h3 (k.p, k.size) (List.mem_map.2 ⟨k, hk, rfl⟩) _ (List.mem_map.2 ⟨m, hm, rfl⟩)
    rw [e3] at this
    exact this.shrink rfl rfl (Nat.le_refl _) e4

/-- The blocks in quarantine are apart from each other. -/
theorem Pre.quar_pairwise (hp : Pre c R s G) : (quar R s).Pairwise (Apart c.inter) := by
  have h1 : (quar R s).Perm (((chunks G).filter fun k => k.st = .delay).map fun k => (k.p, k.size)) := by
    unfold quar
    refine (hp.delay.map _).trans (List.Perm.of_eq ?_)
    unfold dl
    rw [List.map_map]
    apply List.map_congr_left
    intro k hk
    obtain ⟨h1, h2⟩ := List.mem_filter.1 hk
    simp only [Function.comp]
    rw [hp.dz k h1 (by simpa using h2)]
  refine (h1.pairwise_iff (fun h => h.symm)).2 ?_
  rw [List.pairwise_map]
  exact hp.chunks_apart.filter _

/-- Where a block in use lies. -/
theorem Pre.block_place (hc : CfgOk c) (hp : Pre c R s G) {x : Nat × Nat} (hx : x ∈ blocks R s G) :
    0 < x.1 ∧ x.1 % c.A = 0 ∧
    ((∃ a ∈ s.arenas, a.base + c.inter ≤ x.1 ∧ x.1 + x.2 + c.inter ≤ a.commit) ∨
      ∃ m ∈ s.maps, m.ptr = x.1 ∧ m.base + c.rz + c.hbr ≤ x.1 ∧ x.1 + x.2 + c.rz ≤ m.base + m.size) := by
  rcases List.mem_append.1 hx with hx | hx
  · obtain ⟨G1, a, l, k, r, G2, rfl, h1, h2⟩ := mem_lives (p := x.1) (q := x.2) hx
    obtain ⟨h, ha⟩ := hp.at
    have hI := inter_pos c
    have := ha.lo
    have := ha.hi
    have := ha.commit
    have := hp.geo_at.base
    have := (ha.ok.req _ h2).1
    refine ⟨by omega, ?_, Or.inl ⟨a, by rw [hp.arenas]; simp, by omega, by omega⟩⟩
    rw [← h1]
    exact Nat.mod_eq_zero_of_dvd
      (((hp.rep (a, l ++ k :: r) (by simp)).align hc hp.geo_at.start).2 k (by simp))
  · obtain ⟨m, hm, rfl⟩ := List.mem_map.1 hx
    obtain ⟨h, e1, e2, e3, e4⟩ := hp.map_space hm
    have := (hp.maps m hm).pos
    exact ⟨by simp only; omega, Nat.mod_eq_zero_of_dvd (hp.maps m hm).align,
      Or.inr ⟨m, hm, rfl, by simp only; omega, by simp only; omega⟩⟩

/-- Two blocks at the same address are the same. -/
theorem Pre.block_unique (hp : Pre c R s G) {x y : Nat × Nat} (hx : x ∈ blocks R s G)
    (hy : y ∈ blocks R s G) (h : x.1 = y.1) : x = y := by
  by_contra hne
  have : Std.Symm (Apart c.inter) := ⟨fun _ _ h => h.symm⟩
  have h1 := hp.blocks_apart.forall hx hy hne
  have := inter_pos c
  unfold Apart at h1
  omega

theorem Pre.blocks_nodup (hp : Pre c R s G) : (blocks R s G).Nodup := by
  refine hp.blocks_apart.imp ?_
  intro x y h he
  subst he
  have := inter_pos c
  unfold Apart at h
  omega

/-- The entry of an address is removed from a ledger. -/
def drop (L : List (Nat × Nat)) (p : Nat) : List (Nat × Nat) := L.filter fun x => x.1 ≠ p

theorem drop_perm {L L' : List (Nat × Nat)} (h : L.Perm L') (p : Nat) : (drop L p).Perm (drop L' p) :=
  h.filter _

theorem drop_cons {L : List (Nat × Nat)} {p q : Nat} (h : ∀ x ∈ L, x.1 ≠ p) : drop ((p, q) :: L) p = L := by
  unfold drop
  rw [List.filter_cons_of_neg (by simp), List.filter_eq_self]
  intro x hx
  exact decide_eq_true (h x hx)

theorem drop_none {L : List (Nat × Nat)} {p : Nat} (h : ∀ q, (p, q) ∉ L) : drop L p = L := by
  unfold drop
  rw [List.filter_eq_self]
  rintro ⟨x, q⟩ hx
  refine decide_eq_true ?_
  rintro rfl
  exact h q hx

/-- Removing the one entry of `p`. -/
theorem Pre.drop_blocks (hp : Pre c R s G) {p q : Nat} {L : List (Nat × Nat)}
    (h : (blocks R s G).Perm ((p, q) :: L)) : (drop (blocks R s G) p).Perm L := by
  have hnd : ((p, q) :: L).Nodup := h.nodup_iff.1 hp.blocks_nodup
  refine (drop_perm h p).trans (List.Perm.of_eq (drop_cons fun x hx he => ?_))
  have := hp.block_unique (h.mem_iff.2 (List.mem_cons_of_mem _ hx)) (h.mem_iff.2 (List.mem_cons_self ..)) he
  rw [this] at hx
  exact (List.nodup_cons.1 hnd).1 hx

/-! ## `free` -/

/-- Freeing a block in use: it leaves the ledger; a chunk enters the quarantine. -/
theorem free_spec (hc : CfgOk c) (hp : Pre c R s G) (hcalm : Calm (chunks G)) (os : Os) {p q : Nat}
    (h : (p, q) ∈ blocks R s G) :
    ∃ s' R' G' x, free c os s p = some (s', true) ∧ Pre c R' s' G' ∧ Calm (chunks G') ∧ s'.mem = s.mem ∧
      (drop (blocks R s G) p).Perm (blocks R' s' G') ∧ s.hdr p = some x ∧ q ≤ x.size ∧
      (x.mmap = true → ∃ m ∈ s.maps, m.ptr = p) ∧
      quar R' s' = if x.mmap then quar R s
        else trim c.delayFrees c.delayMax (quar R s ++ [(p, x.size)]) := by
  rcases List.mem_append.1 h with h1 | h1
  · obtain ⟨s', R', G', x, e, P, C, m, b, hx, hq⟩ := free_chunk hc hp hcalm os h1
    obtain ⟨-, x', hx', hm, -, -, hle, -⟩ := hp.hdr_live hc h1
    rw [hx] at hx'
    cases hx'
    refine ⟨s', R', G', x, e, P, C, m, hp.drop_blocks b, hx, hle, (fun h => by rw [hm] at h; cases h), ?_⟩
    rw [hm]; exact hq
  · obtain ⟨m, hm, he⟩ := List.mem_map.1 h1
    cases he
    obtain ⟨s', e, P, mm, mp, d, -, -⟩ := free_map hp os hm
    obtain ⟨-, x, hx, hmm, hrq, -, -⟩ := hp.hdr_map hm
    refine ⟨s', R, G, x, e, P, hcalm, mm, hp.drop_blocks (q := R m.ptr) ?_, hx, ?_, fun _ => ⟨m, hm, rfl⟩, ?_⟩
    · unfold blocks
      rw [mp]
      refine (List.Perm.append_left _ ((List.perm_cons_erase hm).map _)).trans ?_
      exact List.perm_middle
    · rw [← hrq]; unfold Hdr.req; omega
    · rw [hmm, if_pos rfl]; unfold quar; rw [d]

/-! ## `realloc` in place -/

theorem Pre.withMem (hp : Pre c R s G) (mem : Nat → UInt8) : Pre c R { s with mem := mem } G :=
  ⟨hp.arenas, hp.ne, hp.geo, hp.rep, hp.regs, hp.free, hp.delay, hp.dChunks, hp.dBytes, hp.maps, hp.stale, hp.dz⟩

/-- The size asked for is changed in the header. -/
theorem resize_spec (hp : Pre c R s G) (hcalm : Calm (chunks G)) {p q size : Nat} {x : Hdr}
    (h : (p, q) ∈ blocks R s G) (hx : s.hdr p = some x) (hs : size ≤ x.size) :
    ∃ R' G', Pre c R' (s.put p { x with reqDiff := x.size - size }) G' ∧ Calm (chunks G') ∧
      ((p, size) :: drop (blocks R s G) p).Perm
        (blocks R' (s.put p { x with reqDiff := x.size - size }) G') ∧
      quar R' (s.put p { x with reqDiff := x.size - size }) = quar R s := by
  rcases List.mem_append.1 h with h1 | h1
  · obtain ⟨G1, a, l, k, r, G2, rfl, rfl, hk⟩ := mem_lives h1
    obtain ⟨h', ha⟩ := hp.at
    have := ha.hdr
    rw [hx] at this
    cases this
    obtain ⟨c1, c2, c3, c4⟩ := hcalm.mid
    refine ⟨R, G1 ++ (a, l ++ { k with st := .live size } :: r) :: G2, ?_, ?_, ?_, rfl⟩
    · refine hp.restate rfl rfl rfl rfl rfl ?_ ?_ (fun h => by cases h) ?_ ?_ ?_ ?_
      · unfold Ck.fsz; rw [hk]
      · refine ⟨ha.ok.size, ?_, ?_, ha.ok.mmap, ha.ok.prevFree, ha.ok.prevSz, fun q' hq' => ?_⟩
        · have := ha.ok.freed; rw [hk] at this; exact this
        · have := ha.ok.delay; rw [hk] at this; exact this
        · cases hq'
          rw [ha.ok.size] at hs
          exact ⟨hs, by simp only [ha.ok.size]⟩
      · intro b X hX
        rw [fr_cons_not (by rw [hk]; intro h; cases h)] at hX
        rw [fr_cons_not (by intro h; cases h)]; exact hX
      · intro X hX
        rw [dl_cons_not (by rw [hk]; intro h; cases h)] at hX
        rw [dl_cons_not (by intro h; cases h)]; exact hX
      · rw [dl_cons_not (k := k) (by rw [hk]; intro h; cases h),
          dl_cons_not (k := { k with st := .live size }) (by intro h; cases h)]; rfl
      · rw [db_cons_not (k := k) (by rw [hk]; intro h; cases h),
          db_cons_not (k := { k with st := .live size }) (by intro h; cases h)]; rfl
    · rw [chunks_mid, Calm.append, Calm.append, Calm.append]
      refine ⟨c1, ⟨c2, fun k' hk' => ?_⟩, c4⟩
      rcases List.mem_cons.1 hk' with rfl | hk'
      · exact Or.inl ⟨_, rfl⟩
      · exact c3 k' hk'
    · have key : ∀ z : Nat, (lives (chunks (G1 ++ (a, l ++ { k with st := .live z } :: r) :: G2))).Perm
          ((k.p, z) :: (lives (chunks G1) ++ (lives l ++ lives r ++ lives (chunks G2)))) := by
        intro z
        rw [chunks_mid]
        simp only [lives_append]
        have : lives ({ k with st := .live z } :: r) = (k.p, z) :: lives r := by simp [lives]
        rw [this, List.append_assoc, List.append_assoc, List.cons_append, ← List.append_assoc,
          ← List.append_assoc (lives (chunks G1)) (lives l)]
        exact List.perm_middle
      have hk' : k = { k with st := .live q } := by rw [← hk]
      have h2 : (blocks R s (G1 ++ (a, l ++ k :: r) :: G2)).Perm ((k.p, q) ::
          (lives (chunks G1) ++ (lives l ++ lives r ++ lives (chunks G2)) ++
            s.maps.map fun m => (m.ptr, R m.ptr))) := by
        unfold blocks
        rw [← List.cons_append]
        refine List.Perm.append_right _ ?_
        rw [hk']; exact key q
      refine ((hp.drop_blocks h2).cons _).trans ?_
      unfold blocks
      rw [← List.cons_append]
      exact List.Perm.append_right _ (key size).symm
  · obtain ⟨m, hm, he⟩ := List.mem_map.1 h1
    cases he
    have hmo := hp.maps m hm
    obtain ⟨y, y1, y2, y3, y4, y5, y6⟩ := hmo.hdr
    rw [hx] at y1
    cases y1
    have hne : ∀ m' ∈ s.maps, m' ≠ m → m'.ptr ≠ m.ptr := by
      intro m' hm' hne he
      have a1 := hmo.pos
      have a2 := hmo.fits
      have a3 := (hp.maps m' hm').pos
      have a4 := (hp.maps m' hm').fits
      exact hne (hp.map_unique hm' hm (y := m.ptr) (by omega) (by omega) (by omega) (by omega))
    have hck : ∀ k ∈ chunks G, k.p ≠ m.ptr := by
      intro k hk he
      obtain ⟨g, hg, hkg⟩ := List.mem_flatMap.1 hk
      obtain ⟨z, pm, z1, z2⟩ := (hp.rep g hg).hdr_mem k hkg
      rw [he, hx] at z1
      cases z1
      rw [z2.mmap] at y2
      cases y2
    have hreq : Hdr.req { x with reqDiff := x.size - size } = size := by
      unfold Hdr.req; simp only; omega
    refine ⟨fun z => if z = m.ptr then size else R z, G, ?_, hcalm, ?_, ?_⟩
    · constructor
      · exact hp.arenas
      · exact hp.ne
      · exact hp.geo
      · intro g hg
        refine (hp.rep g hg).frame fun y h1 h2 => ?_
        have hd := hp.map_disj hg hm
        have hg2 := hp.geo g hg
        have h3 := hg2.base
        have h4 := hg2.commit
        have a1 := hmo.pos
        have a2 := hmo.fits
        simp only [Disj] at hd
        rw [put_hdr, if_neg (by omega)]
      · exact hp.regs
      · exact hp.free
      · exact hp.delay
      · exact hp.dChunks
      · exact hp.dBytes
      · intro m' hm'
        by_cases e : m' = m
        · subst e
          refine { hmo with hdr := ⟨{ x with reqDiff := x.size - size }, ?_, y2, y3, ?_, ?_, y6⟩ }
          · rw [put_hdr, if_pos rfl]
          · simp only; omega
          · rw [hreq, if_pos rfl]
        · have h2 := hp.maps m' hm'
          have h3 := hne m' hm' e
          exact { h2 with hdr := by rw [put_hdr, if_neg h3, if_neg h3]; exact h2.hdr }
      · intro p h' hh hf
        by_cases e : p = m.ptr
        · exact Or.inr ⟨m, hm, e.symm⟩
        · rw [put_hdr, if_neg e] at hh
          exact hp.stale p h' hh hf
      · intro k hk hd
        simp only [if_neg (hck k hk)]
        exact hp.dz k hk hd
    · have h2 : (blocks R s G).Perm ((m.ptr, R m.ptr) ::
          (lives (chunks G) ++ (s.maps.erase m).map fun m => (m.ptr, R m.ptr))) := by
        unfold blocks
        refine (List.Perm.append_left _ ((List.perm_cons_erase hm).map _)).trans ?_
        exact List.perm_middle
      refine ((hp.drop_blocks h2).cons _).trans ?_
      unfold blocks
      refine List.perm_middle.symm.trans (List.Perm.append_left _ ?_)
      refine List.Perm.trans ?_ ((List.perm_cons_erase hm).map _).symm
      simp only [List.map_cons, if_true]
      refine List.Perm.cons _ (List.Perm.of_eq ?_)
      apply List.map_congr_left
      intro m' hm'
      have hnd : s.maps.Nodup := by
        refine hp.map_region.imp_of_mem ?_
        intro x y hx _ hd he
        subst he
        have := (hp.maps x hx).pos
        have := (hp.maps x hx).fits
        simp only [Disj] at hd
        omega
      have e : m' ≠ m := by rintro rfl; exact hnd.not_mem_erase hm'
      rw [if_neg (hne m' (List.mem_of_mem_erase hm') e)]
    · unfold quar
      apply List.map_congr_left
      intro p hpd
      obtain ⟨_, _, _, k, _, _, hG, rfl, hd⟩ := hp.delay_split hpd
      simp only [if_neg (hck k (by rw [hG, chunks_mid]; simp))]

/-! ## Stores by the application -/

/-- Only the headers of chunks and large blocks matter. -/
theorem Rep.frame' {hdr hdr' : Nat → Option Hdr} {l : List Ck} : ∀ {p pf q pf'}, Rep c hdr p pf l q pf' →
    (∀ k ∈ l, hdr' k.p = hdr k.p) → Rep c hdr' p pf l q pf' := by
  induction l with
  | nil => intro _ _ _ _ h _; exact h
  | cons k l ih =>
    rintro p pf q pf' ⟨h1, h2, h3, h4, h5, h⟩ hf
    refine ⟨h1, h2, h3, ?_, h5, ih h fun k hk => hf k (List.mem_cons_of_mem _ hk)⟩
    rw [← h1, hf k (List.mem_cons_self ..), h1]; exact h4

/-- The bytes of a header are not part of a block in use. -/
theorem Pre.header_outside (hp : Pre c R s G) {x : Nat × Nat} (hx : x ∈ blocks R s G) {p : Nat}
    (h : (∃ k ∈ chunks G, k.p = p) ∨ ∃ m ∈ s.maps, m.ptr = p) :
    c.rbh + c.hs ≤ p ∧ (x.1 + x.2 ≤ p - c.rbh - c.hs ∨ p ≤ x.1) := by
  have hin := hs_le c
  have hmh := (mh_inter c).1
  -- the block containing x
  have hx' : (∃ k ∈ chunks G, k.p = x.1 ∧ x.2 ≤ k.size) ∨ ∃ m ∈ s.maps, m.ptr = x.1 ∧ R m.ptr = x.2 := by
    rcases List.mem_append.1 hx with hx | hx
    · left
      obtain ⟨k, hk, he⟩ := List.mem_filterMap.1 hx
      cases hs : k.st <;> rw [hs] at he <;> simp only [reduceCtorEq, Option.some.injEq] at he
      subst he
      exact ⟨k, hk, rfl, hp.live_size hk hs⟩
    · obtain ⟨m, hm, rfl⟩ := List.mem_map.1 hx
      exact Or.inr ⟨m, hm, rfl, rfl⟩
  rcases h with ⟨k, hk, rfl⟩ | ⟨m, hm, rfl⟩
  · obtain ⟨g, hg, hkg⟩ := List.mem_flatMap.1 hk
    have h1 := hp.chunk_in hg hkg
    have h2 := (hp.geo g hg).base
    refine ⟨by omega, ?_⟩
    rcases hx' with ⟨k', hk', e1, e2⟩ | ⟨m, hm, e1, e2⟩
    · by_cases e : k = k'
      · subst e; right; omega
      · have : Std.Symm fun k k' : Ck => Apart c.inter (k.p, k.size) (k'.p, k'.size) :=
          ⟨fun _ _ h => h.symm⟩
        have := hp.chunks_apart.forall hk hk' e
        unfold Apart at this
        simp only at this
        omega
    · obtain ⟨h, z1, z2, z3, z4⟩ := hp.map_space hm
      have hd := hp.map_disj hg hm
      simp only [Disj] at hd
      omega
  · obtain ⟨h, z1, z2, z3, z4⟩ := hp.map_space hm
    refine ⟨by omega, ?_⟩
    rcases hx' with ⟨k', hk', e1, e2⟩ | ⟨m', hm', e1, e2⟩
    · obtain ⟨g, hg, hkg⟩ := List.mem_flatMap.1 hk'
      have h1 := hp.chunk_in hg hkg
      have hd := hp.map_disj hg hm
      simp only [Disj] at hd
      omega
    · by_cases e : m = m'
      · subst e; right; omega
      · have : Std.Symm fun m m' : Map =>
          Disj (m.base, m.base + m.size) (m'.base, m'.base + m'.size) := ⟨fun _ _ h => Or.symm h⟩
        have hd := hp.map_region.forall hm hm' e
        obtain ⟨h', y1, y2, y3, y4⟩ := hp.map_space hm'
        simp only [Disj] at hd
        omega

/-- A store into a block in use damages no header. -/
theorem store_spec (hp : Pre c R s G) {x : Nat × Nat} (hx : x ∈ blocks R s G) {b : Nat}
    (h1 : x.1 ≤ b) (h2 : b < x.1 + x.2) (v : UInt8) : Pre c R (store c s b v) G := by
  have hkeep : ∀ p, ((∃ k ∈ chunks G, k.p = p) ∨ ∃ m ∈ s.maps, m.ptr = p) →
      (store c s b v).hdr p = s.hdr p := by
    intro p h
    have := hp.header_outside hx h
    simp only [store]
    rw [if_neg (by omega)]
  refine ⟨hp.arenas, hp.ne, hp.geo, ?_, hp.regs, hp.free, hp.delay, hp.dChunks, hp.dBytes, ?_, ?_, hp.dz⟩
  · intro g hg
    exact (hp.rep g hg).frame' fun k hk => hkeep k.p (Or.inl ⟨k, List.mem_flatMap.2 ⟨g, hg, hk⟩, rfl⟩)
  · intro m hm
    have h := hp.maps m hm
    exact { h with hdr := by rw [hkeep m.ptr (Or.inr ⟨m, hm, rfl⟩)]; exact h.hdr }
  · intro p h hh hf
    refine hp.stale p h ?_ hf
    simp only [store] at hh
    split at hh
    · cases hh
    · exact hh

/-! ## Iteration -/

theorem walk_spec {l : List Ck} : ∀ {p pf q pf' : Nat} {n : Nat}, Rep c s.hdr p pf l q pf' →
    Calm l → q - p ≤ n → walk c s q n p = some (lives l) := by
  induction l with
  | nil =>
    rintro p pf q pf' n ⟨rfl, -⟩ _ _
    cases n with
    | zero => rfl
    | succ n => unfold walk; rw [if_neg (by omega)]; rfl
  | cons k l ih =>
    rintro p pf q pf' n ⟨h1, h2, h3, ⟨h, h4, h5⟩, h6, h7⟩ hcalm hn
    have hle := h7.le
    have hI := inter_pos c
    cases n with
    | zero => omega
    | succ n =>
      unfold walk
      rw [if_pos (by omega)]
      simp only [h4, h5.size]
      rw [ih h7 (fun k' hk' => hcalm k' (List.mem_cons_of_mem _ hk')) (by omega)]
      simp only [h5.freed]
      rcases hcalm k (List.mem_cons_self ..) with ⟨r, hr⟩ | hr | hr
      · have h8 := h5.req r hr
        have h9 : h.req = r := by unfold Hdr.req; rw [h5.size, h8.2]; omega
        simp [lives, hr, CS.freed, h9, h1]
      · simp [lives, hr, CS.freed]
      · simp [lives, hr, CS.freed]

/-- The blocks of one region. -/
def regionBlocks (R : Nat → Nat) (G : List (Arena × List Ck)) : Arena ⊕ Map → List (Nat × Nat)
  | .inl a => lives ((G.filter fun g => g.1 = a).flatMap Prod.snd)
  | .inr m => [(m.ptr, R m.ptr)]

theorem Pre.arenas_nodup (hp : Pre c R s G) : s.arenas.Nodup := by
  have h := hp.regs
  unfold Al.regs at h
  rw [List.pairwise_append, List.pairwise_map] at h
  refine h.1.imp_of_mem ?_
  intro a b ha _ hd he
  subst he
  rw [hp.arenas] at ha
  obtain ⟨g, hg, rfl⟩ := List.mem_map.1 ha
  have h1 := (hp.geo g hg).base
  have h2 := (hp.geo g hg).next
  have h3 := (hp.geo g hg).commit
  have h4 := inter_pos c
  simp only [Disj] at hd
  omega

theorem Pre.regionBlocks (hp : Pre c R s G) {a : Arena} {l : List Ck} (hg : (a, l) ∈ G) :
    regionBlocks R G (.inl a) = lives l := by
  have hnd := hp.arenas_nodup
  rw [hp.arenas] at hnd
  have hf : G.filter (fun g => g.1 = a) = [(a, l)] := by
    clear hp
    obtain ⟨G1, G2, rfl⟩ := List.append_of_mem hg
    simp only [List.map_append, List.map_cons, List.nodup_append, List.nodup_cons, List.mem_map,
      List.mem_cons] at hnd
    obtain ⟨-, ⟨h2, -⟩, h3⟩ := hnd
    rw [List.filter_append, List.filter_cons_of_pos (by simp)]
    have e1 : G1.filter (fun g => g.1 = a) = [] := by
      rw [List.filter_eq_nil_iff]
      intro g hg
      simp only [decide_eq_true_eq]
      intro he
      exact h3 g.1 ⟨g, hg, rfl⟩ a (Or.inl rfl) he
    have e2 : G2.filter (fun g => g.1 = a) = [] := by
      rw [List.filter_eq_nil_iff]
      intro g hg
      simp only [decide_eq_true_eq]
      intro he
      exact h2 ⟨g, hg, he⟩
    rw [e1, e2]; rfl
  unfold Al.regionBlocks
  simp only
  rw [hf]; simp

theorem iterRegion_spec (hp : Pre c R s G) (hcalm : Calm (chunks G)) {x : Arena ⊕ Map}
    (hx : x ∈ s.arenas.map Sum.inl ++ s.maps.map Sum.inr) :
    iterRegion c s x = some (regionBlocks R G x) := by
  rcases List.mem_append.1 hx with hx | hx
  · obtain ⟨a, ha, rfl⟩ := List.mem_map.1 hx
    rw [hp.arenas] at ha
    obtain ⟨⟨a', l⟩, hg, rfl⟩ := List.mem_map.1 ha
    rw [hp.regionBlocks hg]
    unfold iterRegion
    exact walk_spec (hp.rep _ hg) (fun k hk => hcalm k (List.mem_flatMap.2 ⟨_, hg, hk⟩)) (Nat.le_refl _)
  · obtain ⟨m, hm, rfl⟩ := List.mem_map.1 hx
    obtain ⟨-, x, h1, -, h2, h3, -⟩ := hp.hdr_map hm
    unfold iterRegion regionBlocks
    simp [h1, h2, h3]

theorem iterate_eq (hp : Pre c R s G) (hcalm : Calm (chunks G)) : ∀ {rs : List (Arena ⊕ Map)},
    (∀ x ∈ rs, x ∈ s.arenas.map Sum.inl ++ s.maps.map Sum.inr) →
    iterate c s rs = some (rs.flatMap (regionBlocks R G)) := by
  intro rs
  induction rs with
  | nil => intro _; rfl
  | cons x rs ih =>
    intro h
    unfold iterate
    rw [iterRegion_spec hp hcalm (h x (List.mem_cons_self ..)),
      ih fun y hy => h y (List.mem_cons_of_mem _ hy)]
    rfl

/-- The blocks of the regions are the blocks in use. -/
theorem Pre.allBlocks (hp : Pre c R s G) :
    (s.arenas.map Sum.inl ++ s.maps.map Sum.inr).flatMap (Al.regionBlocks R G) = blocks R s G := by
  unfold blocks
  rw [List.flatMap_append]
  congr 1
  · rw [hp.arenas, List.map_map, List.flatMap_map]
    have h : ∀ G' : List (Arena × List Ck), (∀ g ∈ G', g ∈ G) →
        (G'.flatMap fun g => Al.regionBlocks R G ((Sum.inl ∘ Prod.fst) g)) = lives (chunks G') := by
      intro G'
      induction G' with
      | nil => intro _; rfl
      | cons g G' ih =>
        intro h
        rw [List.flatMap_cons, ih fun g hg => h g (List.mem_cons_of_mem _ hg)]
        have h1 : chunks (g :: G') = g.2 ++ chunks G' := by simp [chunks]
        rw [h1, lives_append]
        congr 1
        exact hp.regionBlocks (h g (List.mem_cons_self ..))
    exact h G fun _ h => h
  · rw [List.flatMap_map]
    induction s.maps with
    | nil => rfl
    | cons m ms ih => rw [List.flatMap_cons, ih]; rfl

/-- Bounds of a region. -/
def regionEnd : Arena ⊕ Map → Nat
  | .inl a => a.commit
  | .inr m => m.base + m.size

theorem Pre.region_in (hp : Pre c R s G) {x : Arena ⊕ Map}
    (hx : x ∈ s.arenas.map Sum.inl ++ s.maps.map Sum.inr) :
    (Al.regionBlocks R G x).Pairwise (fun y z => y.1 < z.1) ∧
      ∀ y ∈ Al.regionBlocks R G x, regionLo x ≤ y.1 ∧ y.1 < regionEnd x := by
  rcases List.mem_append.1 hx with hx | hx
  · obtain ⟨a, ha, rfl⟩ := List.mem_map.1 hx
    rw [hp.arenas] at ha
    obtain ⟨⟨a, l⟩, hg, rfl⟩ := List.mem_map.1 ha
    rw [hp.regionBlocks hg]
    constructor
    · rw [lives_eq, List.pairwise_filterMap]
      refine (hp.rep _ hg).pairwise.imp ?_
      intro k k' hk x hx y hy
      have := inter_pos c
      cases hs : k.st <;> rw [hs] at hx <;> simp only [reduceCtorEq, Option.some.injEq] at hx
      cases hs' : k'.st <;> rw [hs'] at hy <;> simp only [reduceCtorEq, Option.some.injEq] at hy
      subst hx hy
      simp only
      omega
    · intro y hy
      obtain ⟨k, hk, he⟩ := List.mem_filterMap.1 hy
      cases hs : k.st <;> rw [hs] at he <;> simp only [reduceCtorEq, Option.some.injEq] at he
      subst he
      have := hp.chunk_in hg hk
      simp only [regionLo, regionEnd] at *
      omega
  · obtain ⟨m, hm, rfl⟩ := List.mem_map.1 hx
    have h1 := (hp.maps m hm).pos
    have h2 := (hp.maps m hm).fits
    constructor
    · exact List.pairwise_singleton _ _
    · intro y hy
      rcases List.mem_singleton.1 hy with rfl
      simp only [regionLo, regionEnd]
      omega

/-- The walk over all regions yields the blocks in use in address order. -/
theorem iterateAll_spec (hp : Pre c R s G) (hcalm : Calm (chunks G)) :
    ∃ l, iterateAll c s = some l ∧ l.Perm (blocks R s G) ∧ l.Pairwise fun y z => y.1 < z.1 := by
  have hperm : (heapRegions s).Perm (s.arenas.map Sum.inl ++ s.maps.map Sum.inr) :=
    List.mergeSort_perm _ _
  refine ⟨(heapRegions s).flatMap (Al.regionBlocks R G), ?_, ?_, ?_⟩
  · exact iterate_eq hp hcalm fun x hx => hperm.mem_iff.1 hx
  · refine (hperm.flatMap_right _).trans (List.Perm.of_eq hp.allBlocks)
  · have hsort : (heapRegions s).Pairwise fun x y => regionLo x ≤ regionLo y := by
      have := List.pairwise_mergeSort (le := fun x y : Arena ⊕ Map => decide (regionLo x ≤ regionLo y))
        (by intro a b c; simp only [decide_eq_true_eq]; omega)
        (by intro a b; simp only [Bool.or_eq_true, decide_eq_true_eq]; omega)
        (s.arenas.map Sum.inl ++ s.maps.map Sum.inr)
      exact this.imp fun h => of_decide_eq_true h
    have hdis : (heapRegions s).Pairwise fun x y =>
        Disj (regionLo x, regionEnd x) (regionLo y, regionEnd y) := by
      refine (hperm.pairwise_iff (fun h => Or.symm h)).2 ?_
      have h := hp.regs
      unfold Al.regs at h
      have e : s.arenas.map (fun a => (a.base, a.commit)) ++ s.maps.map (fun m => (m.base, m.base + m.size)) =
          (s.arenas.map Sum.inl ++ s.maps.map Sum.inr).map fun x => (regionLo x, regionEnd x) := by
        simp [Function.comp_def, regionLo, regionEnd]
      rw [e, List.pairwise_map] at h
      exact h
    rw [List.pairwise_flatMap]
    constructor
    · intro x hx
      exact (hp.region_in (hperm.mem_iff.1 hx)).1
    · refine (hsort.and hdis).imp_of_mem ?_
      intro x y hx hy ⟨h1, h2⟩ u hu v hv
      have h3 := (hp.region_in (hperm.mem_iff.1 hx)).2 u hu
      have h4 := (hp.region_in (hperm.mem_iff.1 hy)).2 v hv
      simp only [Disj] at h2
      omega

/-! ## `realloc` -/

/-- `realloc` of a block in use. -/
theorem realloc_spec (hc : CfgOk c) (hp : Pre c R s G) (hcalm : Calm (chunks G)) {os : Os} {p q size : Nat}
    (f : RFlags) (h : (p, q) ∈ blocks R s G) (hne : size = 0 → f.allowEmpty = true)
    (hfit : Fits c size 0) (hos : OsFor c s os size 0) :
    ∃ s' res R' G', realloc c os s p size f = some (s', res, true) ∧ Pre c R' s' G' ∧ Calm (chunks G') ∧
      (∃ d Q, quar R s = d ++ Q ∧ (os.ext ≠ none ∨ os.arena ≠ none → d = []) ∧
        ((quar R' s' = Q ∧ (res = 0 ∨ res = p ∨ ∃ m ∈ s.maps, m.ptr = p)) ∨
          (res ≠ 0 ∧ res ≠ p ∧ (∀ m ∈ s.maps, m.ptr ≠ p) ∧
            ∃ z, q ≤ z ∧ quar R' s' = trim c.delayFrees c.delayMax (Q ++ [(p, z)])))) ∧
      ((res = 0 ∧ s'.mem = s.mem ∧ blocks R' s' G' = blocks R s G) ∨
       (res ≠ 0 ∧ res % c.A = 0 ∧ (blocks R' s' G').Perm ((res, size) :: drop (blocks R s G) p) ∧
        (∀ i, i < size → i < q → s'.mem (res + i) = s.mem (p + i)) ∧
        (f.zero = true → ∀ i, i < size → q ≤ i → s'.mem (res + i) = 0) ∧
        (∀ b, ¬ (res ≤ b ∧ b < res + size) → s'.mem b = s.mem b))) := by
  have hplace := hp.block_place hc h
  have hp0 : p ≠ 0 := by have := hplace.1; simp only at this; omega
  have hlive := (hp.isLive_iff hc hcalm p).2 ⟨q, h⟩
  obtain ⟨x, hx, hreq, hle⟩ : ∃ x, s.hdr p = some x ∧ x.req = q ∧ q ≤ x.size := by
    rcases List.mem_append.1 h with h1 | h1
    · obtain ⟨-, x, h2, -, h3, -, h4, -⟩ := hp.hdr_live hc h1
      exact ⟨x, h2, h3, h4⟩
    · obtain ⟨m, hm, he⟩ := List.mem_map.1 h1
      cases he
      obtain ⟨-, x, h2, -, h3, -, -⟩ := hp.hdr_map hm
      refine ⟨x, h2, h3, ?_⟩
      rw [← h3]; unfold Hdr.req; omega
  have hsz : ¬ (size = 0 ∧ f.allowEmpty = false) := by
    rintro ⟨h1, h2⟩
    rw [hne h1] at h2
    cases h2
  unfold realloc
  rw [if_neg hp0, if_neg hsz, if_pos hlive]
  simp only [hx]
  by_cases h1 : size ≤ x.size
  · rw [if_pos h1]
    simp only [hreq]
    obtain ⟨s1, e1, e2⟩ : ∃ s1 : St, (if q < size ∧ f.zero = true then s.zero (p + q) (size - q) else s) = s1 ∧
        s1 = { s with mem := s1.mem } := by
      split
      · exact ⟨_, rfl, rfl⟩
      · exact ⟨_, rfl, rfl⟩
    have hP1 : Pre c R s1 G := by rw [e2]; exact hp.withMem _
    have hb1 : blocks R s1 G = blocks R s G := by rw [e2]; rfl
    have hq1 : quar R s1 = quar R s := by rw [e2]; rfl
    have hx1 : s1.hdr p = some x := by rw [e2]; exact hx
    rw [e1]
    obtain ⟨R', G', P, C, B, hq⟩ := resize_spec hP1 hcalm (by rw [hb1]; exact h) hx1 h1
    refine ⟨_, p, R', G', rfl, P, C, ⟨[], _, rfl, fun _ => rfl, Or.inl ⟨hq.trans hq1, Or.inr (Or.inl rfl)⟩⟩,
      Or.inr ⟨hp0, hplace.2.1, ?_, ?_, ?_, ?_⟩⟩
    · rw [hb1] at B; exact B.symm
    · intro i hi hi'
      rw [put_mem, ← e1]
      split
      · simp only [St.zero]; rw [if_neg (by omega)]
      · rfl
    · intro hz i hi hi'
      rw [put_mem, ← e1, if_pos ⟨by omega, hz⟩]
      simp only [St.zero]
      rw [if_pos (by omega)]
    · intro b hb
      rw [put_mem, ← e1]
      split
      · simp only [St.zero]; rw [if_neg (by omega)]
      · rfl
  · rw [if_neg h1]
    by_cases h2 : f.inPlace = false
    · rw [if_pos h2]
      obtain ⟨s1, res, R1, G1, e, P, C, ⟨d, hd, hd'⟩, ⟨hmp, hmp'⟩, hres⟩ := alloc_spec hc hp hcalm f.zero hfit hos
      simp only [e]
      rcases hres with ⟨rfl, m, b⟩ | ⟨hr, hlt, hal, b, m⟩
      · rw [if_pos rfl]
        exact ⟨s1, 0, R1, G1, rfl, P, C, ⟨d, _, hd, hd', Or.inl ⟨rfl, Or.inl rfl⟩⟩, Or.inl ⟨rfl, m, b⟩⟩
      · rw [if_neg hr]
        have hmin : min size x.req = q := by rw [hreq]; omega
        rw [hmin]
        have hP2 : Pre c R1 (s1.copy res p q) G1 := P.withMem _
        have hin : (p, q) ∈ blocks R1 (s1.copy res p q) G1 :=
          b.mem_iff.2 (List.mem_cons_of_mem _ h)
        obtain ⟨s3, R3, G3, x', e3, P3, C3, m3, b3, hx', hle', hmm, hq3⟩ := free_spec hc hP2 C os hin
        simp only [e3]
        have hap : Apart c.inter (res, size) (p, q) := by
          have h3 := (b.pairwise_iff (fun h => h.symm)).1 P.blocks_apart
          exact (List.pairwise_cons.1 h3).1 _ h
        have hI := inter_pos c
        unfold Apart at hap
        simp only at hap
        have hA : effAlign c 0 = c.A := by
          unfold effAlign; rw [if_pos (A_pos c)]
        rw [hA] at hal
        have hqc : quar R1 (s1.copy res p q) = quar R1 s1 := rfl
        rw [hqc] at hq3
        refine ⟨s3, res, R3, G3, rfl, P3, C3, ⟨d, _, hd, hd', ?_⟩, Or.inr ⟨hr, hal, ?_, ?_, ?_, ?_⟩⟩
        · cases hxm : x'.mmap with
          | true =>
            rw [hxm, if_pos rfl] at hq3
            obtain ⟨m', hm', he⟩ := hmm hxm
            refine Or.inl ⟨hq3, Or.inr (Or.inr ?_)⟩
            rcases hmp m' hm' with h4 | h4
            · exact ⟨m', h4, he⟩
            · omega
          | false =>
            rw [hxm, if_neg (by simp)] at hq3
            refine Or.inr ⟨hr, by omega, fun m' hm' he => ?_, x'.size, hle', hq3⟩
            obtain ⟨-, y, hy, hy', -⟩ := hP2.hdr_map (hmp' m' hm')
            rw [he, hx'] at hy
            cases hy
            rw [hxm] at hy'
            cases hy'
        · refine b3.symm.trans ?_
          have h3 : (drop (blocks R1 (s1.copy res p q) G1) p).Perm (drop ((res, size) :: blocks R s G) p) :=
            drop_perm b p
          refine h3.trans (List.Perm.of_eq ?_)
          unfold drop
          rw [List.filter_cons_of_pos]
          simp only [ne_eq, decide_eq_true_eq]
          omega
        · intro i hi hi'
          rw [m3]
          simp only [St.copy]
          rw [if_pos (by omega), m]
          rw [show p + (res + i - res) = p + i by omega]
          split
          · simp only [St.zero]; rw [if_neg (by omega)]
          · rfl
        · intro hz i hi hi'
          rw [m3]
          simp only [St.copy]
          rw [if_neg (by omega), m, if_pos hz]
          simp only [St.zero]
          rw [if_pos (by omega)]
        · intro d hd
          rw [m3]
          simp only [St.copy]
          rw [if_neg (by omega), m]
          split
          · simp only [St.zero]; rw [if_neg (by omega)]
          · rfl
    · rw [if_neg h2]
      exact ⟨s, 0, R, G, rfl, hp, hcalm, ⟨[], _, rfl, fun _ => rfl, Or.inl ⟨rfl, Or.inl rfl⟩⟩, Or.inl ⟨rfl, rfl, rfl⟩⟩

end Verif.Al
