import Verif.AllocInv

/-!
# The operations of the allocator keep the heap well formed
-/
namespace Verif.Al

variable {c : Cfg} {R : Nat → Nat} {s : St} {G G1 G2 : List (Arena × List Ck)} {a : Arena} {l r : List Ck} {k : Ck}
  {n x : Nat}

@[simp] theorem put_hdr (s : St) (p : Nat) (h : Hdr) (q : Nat) :
    (s.put p h).hdr q = if q = p then some h else s.hdr q := rfl
@[simp] theorem put_arenas (s : St) (p : Nat) (h : Hdr) : (s.put p h).arenas = s.arenas := rfl
@[simp] theorem put_free (s : St) (p : Nat) (h : Hdr) : (s.put p h).free = s.free := rfl
@[simp] theorem put_delay (s : St) (p : Nat) (h : Hdr) : (s.put p h).delay = s.delay := rfl
@[simp] theorem put_dChunks (s : St) (p : Nat) (h : Hdr) : (s.put p h).dChunks = s.dChunks := rfl
@[simp] theorem put_dBytes (s : St) (p : Nat) (h : Hdr) : (s.put p h).dBytes = s.dBytes := rfl
@[simp] theorem put_maps (s : St) (p : Nat) (h : Hdr) : (s.put p h).maps = s.maps := rfl
@[simp] theorem put_mem (s : St) (p : Nat) (h : Hdr) : (s.put p h).mem = s.mem := rfl

/-- The parts of the state that moving free chunks around leaves alone. -/
structure Same (s s' : St) : Prop where
  mem : s'.mem = s.mem
  delay : s'.delay = s.delay
  dChunks : s'.dChunks = s.dChunks
  dBytes : s'.dBytes = s.dBytes
  maps : s'.maps = s.maps

theorem Same.refl (s : St) : Same s s := ⟨rfl, rfl, rfl, rfl, rfl⟩

theorem Same.trans {s s' s'' : St} (h : Same s s') (h' : Same s' s'') : Same s s'' :=
  ⟨h'.mem.trans h.mem, h'.delay.trans h.delay, h'.dChunks.trans h.dChunks,
    h'.dBytes.trans h.dBytes, h'.maps.trans h.maps⟩

/-- Arenas that differ only in the size of the free chunk at the end. -/
def Arena.eqv (a a' : Arena) : Prop := a' = { a with prevFree := a'.prevFree }

theorem Arena.eqv.refl (a : Arena) : a.eqv a := rfl

theorem modify_mid {α : Type} (l1 l2 : List α) (x : α) (f : α → α) :
    (l1 ++ x :: l2).modify l1.length f = l1 ++ f x :: l2 := by
  induction l1 with
  | nil => rfl
  | cons y l1 ih => simp only [List.cons_append, List.length_cons, List.modify_succ_cons, ih]

theorem Pre.modify (hp : Pre c R s (G1 ++ (a, l) :: G2)) (f : Arena → Arena) :
    s.arenas.modify G1.length f = G1.map Prod.fst ++ f a :: G2.map Prod.fst := by
  rw [hp.arenas]
  have := modify_mid (G1.map Prod.fst) (G2.map Prod.fst) a f
  rw [List.length_map] at this
  rw [← this]; simp

theorem Pre.geo_at (hp : Pre c R s (G1 ++ (a, l) :: G2)) : AGeo c a :=
  hp.geo (a, l) (by simp)

/-! ## Finding the next chunk -/

theorem findArena_mid {a : Arena} {p : Nat} (ha : a.has p = true) (as2 : List Arena) :
    ∀ (as1 : List Arena) (n : Nat), (∀ b ∈ as1, b.has p = false) →
      findArena (as1 ++ a :: as2) n p = some (n + as1.length, a) := by
  intro as1
  induction as1 with
  | nil => intro n _; simp [findArena, ha]
  | cons b as1 ih =>
    intro n h
    have hb := h b (by simp)
    simp only [List.cons_append, findArena, hb, Bool.false_eq_true, if_false]
    rw [ih (n + 1) fun b hb => h b (by simp [hb])]
    simp only [List.length_cons, Option.some.injEq, Prod.mk.injEq, and_true]
    omega

theorem Pre.findArena (hp : Pre c R s (G1 ++ (a, l) :: G2)) (hn : n ≤ G1.length) {p : Nat}
    (h1 : a.start ≤ p) (h2 : p < a.commit) :
    findArena (s.arenas.drop n) n p = some (G1.length, a) := by
  have hga := hp.geo (a, l) (by simp)
  have hb0 := hga.base
  have hi := inter_pos c
  simp only at hb0
  rw [hp.arenas, List.map_append, List.map_cons, List.drop_append_of_le_length (by simpa using hn)]
  have := findArena_mid (a := a) (p := p) (by simp [Arena.has, h1, h2]) (G2.map Prod.fst)
    ((G1.map Prod.fst).drop n) n ?_
  · rw [this]
    simp only [List.length_drop, List.length_map, Option.some.injEq, Prod.mk.injEq, and_true]
    omega
  · intro b hb
    obtain ⟨g, hg, rfl⟩ := List.mem_map.1 (List.mem_of_mem_drop hb)
    have hd := hp.arena_disj (Or.inl hg)
    have hg3 := (hp.geo g (by simp [hg])).base
    unfold Arena.has
    rw [Bool.and_eq_false_iff, decide_eq_false_iff_not, decide_eq_false_iff_not]
    simp only [Disj] at hd
    omega

/-- The parts of a chunk's surroundings. -/
structure At (c : Cfg) (s : St) (a : Arena) (l : List Ck) (k : Ck) (r : List Ck) (h : Hdr)
    (pm : Nat) : Prop where
  left : Rep c s.hdr a.start 0 l k.p pm
  hdr : s.hdr k.p = some h
  ok : HdrOk h k pm
  min : c.A ≤ k.size
  dvd : c.A ∣ k.size
  nofree : k.st = .free → pm = 0
  right : Rep c s.hdr (k.p + k.size + c.inter) k.fsz r a.next a.prevFree
  lo : a.start ≤ k.p
  hi : k.p + k.size + c.inter ≤ a.next
  commit : a.next ≤ a.commit
  span : a.commit < a.base + 2 ^ 32
  base : a.base < a.start

theorem Pre.at (hp : Pre c R s (G1 ++ (a, l ++ k :: r) :: G2)) :
    ∃ h, At c s a l k r h (lastFsz l) := by
  have h := hp.rep (a, l ++ k :: r) (by simp)
  obtain ⟨m, pm, h1, h2⟩ := Rep.append.1 h
  have hpm := h1.last
  subst hpm
  obtain ⟨h3, h4, h5, ⟨x, h6, h7⟩, h8, h9⟩ := h2
  subst h3
  have hg := hp.geo (a, l ++ k :: r) (by simp)
  have hb := hg.base
  have hi := inter_pos c
  simp only at hb
  exact ⟨x, h1, h6, h7, h4, h5, h8, h9, h1.le, h9.le, hg.commit, hg.span, by omega⟩

theorem Pre.nextForward_nil (hp : Pre c R s (G1 ++ (a, l ++ [k]) :: G2)) (hn : n ≤ G1.length) :
    nextForward c s n k.p k.size = .last G1.length := by
  obtain ⟨h, ha⟩ := hp.at
  have h1 := ha.right.1
  have := ha.lo
  have := ha.commit
  have := inter_pos c
  unfold nextForward
  rw [hp.findArena hn ha.lo (by omega)]
  simp only []
  rw [if_neg (show ¬ k.p + k.size + c.inter < a.next by omega)]

theorem Pre.nextForward_cons {k' : Ck} (hp : Pre c R s (G1 ++ (a, l ++ k :: k' :: r) :: G2))
    (hn : n ≤ G1.length) : nextForward c s n k.p k.size = .chunk k'.p := by
  obtain ⟨h, ha⟩ := hp.at
  have h1 := ha.right.1
  have h2 := ha.right.2.2.2.2.2.le
  have := ha.lo
  have := ha.commit
  have := inter_pos c
  unfold nextForward
  rw [hp.findArena hn ha.lo (by omega)]
  simp only []
  rw [if_pos (show k.p + k.size + c.inter < a.next by omega), h1]

/-! ## The previous-free field -/

/-- The first chunk of a list is not on a free list and not about to be. -/
def Firm (r : List Ck) : Prop := ∀ k ∈ r.head?, k.st.freed = true → k.st = .delay

theorem fr_cons_not {b : Nat} {k : Ck} (h : k.st ≠ .free) (r : List Ck) :
    fr c b (k :: r) = fr c b r := by simp [fr, h]

theorem dl_cons_not {k : Ck} (h : k.st ≠ .delay) (r : List Ck) : dl (k :: r) = dl r := by
  simp [dl, h]

theorem db_cons_not {k : Ck} (h : k.st ≠ .delay) (r : List Ck) : db (k :: r) = db r := by
  simp [db, h]

theorem fr_cons_free {b : Nat} {k : Ck} (h : k.st = .free) (r : List Ck) :
    fr c b (k :: r) = (if bucketIndex c k.size = b then [k.p] else []) ++ fr c b r := by
  by_cases hb : bucketIndex c k.size = b <;> simp [fr, h, hb]

theorem setPrev_spec (hp : Pre c R s (G1 ++ (a, l ++ k :: r) :: G2)) (hn : n ≤ G1.length)
    (hx : k.st = .held x) (hr : Firm r) :
    ∃ s' a', setPrev c n s k.p = some s' ∧ a.eqv a' ∧ Same s s' ∧
      Pre c R s' (G1 ++ (a', l ++ { k with st := .held k.size } :: r) :: G2) := by
  obtain ⟨h, ha⟩ := hp.at
  have hA := A_pos c
  have hI := inter_pos c
  have hmin := ha.min
  have hbase := ha.base
  have hlo := ha.lo
  have hhi := ha.hi
  have hcm := ha.commit
  have hok' : HdrOk h { k with st := .held k.size } (lastFsz l) := by
    refine ⟨ha.ok.size, ?_, ?_, ha.ok.mmap, ha.ok.prevFree, ha.ok.prevSz, fun r hr => by cases hr⟩
    · rw [ha.ok.freed, hx]; rfl
    · rw [ha.ok.delay, hx]; rfl
  have hnf : ∀ y, (CS.held y) ≠ .free := fun y h => by cases h
  have hnd : ∀ y, (CS.held y) ≠ .delay := fun y h => by cases h
  unfold setPrev
  simp only [ha.hdr, ha.ok.size]
  have hgeo := hp.geo _ (List.mem_append_right G1 (List.mem_cons_self ..))
  cases r with
  | nil =>
    have hend := ha.right.1
    rw [hp.nextForward_nil hn]
    refine ⟨_, { a with prevFree := k.size }, rfl, rfl, ⟨rfl, rfl, rfl, rfl, rfl⟩, ?_⟩
    refine hp.edit ha.left ?_ (hp.modify _) ?_ rfl rfl (Nat.le_refl _) rfl (fun _ _ => rfl)
      ?_ ?_ ?_ ?_ ?_
    · exact ⟨rfl, ha.min, ha.dvd, ⟨h, ha.hdr, hok'⟩, (fun h => by cases h), hend, rfl⟩
    · exact ⟨hgeo.start, hgeo.base, hgeo.next, hgeo.commit, hgeo.pages, hgeo.span⟩
    · intro b X hX
      rw [fr_cons_not (by rw [hx]; exact hnf _)] at hX
      rw [fr_cons_not (hnf _)]; exact hX
    · intro X hX
      rw [dl_cons_not (by rw [hx]; exact hnd _)] at hX
      rw [dl_cons_not (hnd _)]; exact hX
    · rw [dl_cons_not (k := k) (by rw [hx]; exact hnd _), dl_cons_not (hnd _)]
    · rw [db_cons_not (k := k) (by rw [hx]; exact hnd _), db_cons_not (hnd _)]
    · intro p h' h1 h2 h3 h4
      obtain ⟨k', hk', hkp, hkf⟩ := hp.stale_in ha.left h1 h2 h3 h4
      rcases List.mem_singleton.1 hk' with rfl
      rw [hx] at hkf; cases hkf
  | cons k1 r =>
    rw [hp.nextForward_cons hn]
    obtain ⟨h1, h2, h3, ⟨x1, h4, h5⟩, h6, h7⟩ := ha.right
    rw [← h1] at h4
    have hfirm : k1.st.freed = true → k1.st = .delay := hr k1 (by simp)
    have hguard : (x1.freed && !x1.delay) = false := by
      rw [h5.freed, h5.delay]
      cases hfr : k1.st.freed with
      | false => rfl
      | true => rw [hfirm hfr]; rfl
    simp only [h4, hguard, Bool.false_eq_true, if_false]
    have hsz : (if k.size / c.A ≤ 65535 then k.size / c.A * c.A else k.size) = k.size := by
      split
      · exact Nat.div_mul_cancel ha.dvd
      · rfl
    rw [hsz]
    refine ⟨_, a, rfl, rfl, ⟨rfl, rfl, rfl, rfl, rfl⟩, ?_⟩
    have hne : k.p ≠ k1.p := by omega
    have hle := h7.le
    refine hp.edit ha.left ?_ (by rw [put_arenas, hp.arenas]; simp) hgeo rfl rfl (Nat.le_refl _) rfl
      ?_ ?_ ?_ ?_ ?_ ?_
    · refine ⟨rfl, ha.min, ha.dvd, ⟨h, ?_, hok'⟩, (fun h => by cases h), ?_⟩
      · rw [put_hdr, if_neg hne]; exact ha.hdr
      · refine ⟨h1, h2, h3, ⟨{ x1 with prevFree := true, prevSz := k.size }, ?_, ?_⟩, ?_, ?_⟩
        · rw [put_hdr, if_pos h1.symm]
        · refine ⟨h5.size, h5.freed, h5.delay, h5.mmap, ?_, fun _ => rfl, h5.req⟩
          show true = decide (k.size ≠ 0)
          rw [eq_comm, decide_eq_true_eq]; omega
        · intro hf
          have := hfirm (by rw [hf]; rfl)
          rw [hf] at this; cases this
        · refine h7.frame fun y hy _ => ?_
          rw [put_hdr, if_neg (by omega)]
    · intro p hpn
      rw [put_hdr, if_neg (by omega)]
    · intro b X hX
      rw [fr_cons_not (by rw [hx]; exact hnf _)] at hX
      rw [fr_cons_not (hnf _)]; exact hX
    · intro X hX
      rw [dl_cons_not (by rw [hx]; exact hnd _)] at hX
      rw [dl_cons_not (hnd _)]; exact hX
    · rw [dl_cons_not (k := k) (by rw [hx]; exact hnd _), dl_cons_not (k := { k with st := .held k.size }) (hnd _)]; rfl
    · rw [db_cons_not (k := k) (by rw [hx]; exact hnd _), db_cons_not (k := { k with st := .held k.size }) (hnd _)]; rfl
    · intro p h' g1 g2 g3 g4
      by_cases hpk : p = k1.p
      · exact ⟨k1, by simp, hpk.symm⟩
      · rw [put_hdr, if_neg hpk] at g3
        obtain ⟨k', hk', hkp, hkf⟩ := hp.stale_in ha.left g1 g2 g3 g4
        rcases List.mem_cons.1 hk' with rfl | hk'
        · rw [hx] at hkf; cases hkf
        · exact ⟨k', List.mem_cons_of_mem _ hk', hkp⟩

/-! ## Merging with the neighbours -/

/-- No chunk is about to go onto a free list. -/
def NoHeld (C : List Ck) : Prop := ∀ k ∈ C, ∀ x, k.st ≠ .held x

/-- No chunk is in an intermediate freed state. -/
def Quiet (C : List Ck) : Prop := ∀ k ∈ C, k.st ≠ .pop ∧ ∀ x, k.st ≠ .held x

/-- Chunks that are neither free nor about to be. -/
def solids (C : List Ck) : List Ck := C.filter fun k => match k.st with
  | .free => false
  | .held _ => false
  | _ => true

theorem solids_append (C D : List Ck) : solids (C ++ D) = solids C ++ solids D := by simp [solids]

theorem solids_free {k : Ck} (h : k.st = .free) (C : List Ck) : solids (k :: C) = solids C := by
  simp [solids, h]

theorem solids_held {k : Ck} {x : Nat} (h : k.st = .held x) (C : List Ck) :
    solids (k :: C) = solids C := by
  simp [solids, h]

theorem Quiet.noHeld {C : List Ck} (h : Quiet C) : NoHeld C := fun k hk => (h k hk).2

/-- A chunk off its free list. -/
def unfree (s : St) (b p : Nat) : St :=
  { s with free := fun i => if i = b then (s.free b).erase p else s.free i }

theorem removeFree_spec {p size : Nat} (h : p ∈ s.free (bucketIndex c size)) :
    removeFree c s p size = some (unfree s (bucketIndex c size) p) := by
  simp [removeFree, h, unfree]

@[simp] theorem unfree_hdr (s : St) (b p : Nat) : (unfree s b p).hdr = s.hdr := rfl

theorem erase_free {b0 p : Nat} (b : Nat) (X : List Nat)
    (h : (s.free b).Perm ((if b0 = b then [p] else []) ++ X)) :
    (if b = b0 then (s.free b0).erase p else s.free b).Perm X := by
  by_cases hb : b0 = b
  · subst hb
    rw [if_pos rfl] at h ⊢
    have := h.erase p
    simpa using this
  · rw [if_neg hb] at h
    rw [if_neg (Ne.symm hb)]; simpa using h

theorem Pre.free_mem (hp : Pre c R s (G1 ++ (a, l ++ k :: r) :: G2)) (hk : k.st = .free) :
    k.p ∈ s.free (bucketIndex c k.size) := by
  rw [(hp.free _).mem_iff, chunks_mid]
  simp only [fr, List.mem_map, List.mem_filter]
  exact ⟨k, ⟨by simp, by simp [hk]⟩, rfl⟩

theorem last_free {l : List Ck} (h : NoHeld l) (h0 : lastFsz l ≠ 0) :
    ∃ l0 kf, l = l0 ++ [kf] ∧ kf.st = .free ∧ lastFsz l = kf.size := by
  induction l using List.reverseRecOn with
  | nil => exact absurd rfl h0
  | append_singleton l0 kf _ =>
    have h1 : lastFsz (l0 ++ [kf]) = kf.fsz := by simp [lastFsz]
    refine ⟨l0, kf, rfl, ?_, ?_⟩
    · have h2 := h kf (by simp)
      rw [h1] at h0
      unfold Ck.fsz at h0
      cases hst : kf.st with
      | free => rfl
      | held x => exact absurd hst (h2 x)
      | _ => rw [hst] at h0; simp at h0
    · have h2 := h kf (by simp)
      rw [h1] at h0 ⊢
      unfold Ck.fsz at h0 ⊢
      cases hst : kf.st with
      | free => rfl
      | held x => exact absurd hst (h2 x)
      | _ => rw [hst] at h0; simp at h0

theorem mergePrev_spec (hc : CfgOk c) (hp : Pre c R s (G1 ++ (a, l ++ k :: r) :: G2)) (hx : k.st = .held x)
    (hl : NoHeld l) :
    ∃ s' l' k', mergePrev c s k.p = some (s', k'.p) ∧ Same s s' ∧
      Pre c R s' (G1 ++ (a, l' ++ k' :: r) :: G2) ∧ k'.st = .held x ∧ lastFsz l' = 0 ∧
      NoHeld l' ∧ solids l' = solids l ∧ k'.p ≤ k.p ∧ k'.p + k'.size = k.p + k.size := by
  by_cases h0 : lastFsz l = 0
  · obtain ⟨h, ha⟩ := hp.at
    refine ⟨s, l, k, ?_, Same.refl s, hp, hx, h0, hl, rfl, Nat.le_refl _, rfl⟩
    have hpf := ha.ok.prevFree
    rw [h0] at hpf
    simp only [ne_eq, not_true_eq_false, decide_false] at hpf
    unfold mergePrev
    simp only [ha.hdr, hpf, Bool.false_eq_true, if_false]
  · obtain ⟨l0, kf, rfl, hkf, hsz⟩ := last_free hl h0
    obtain ⟨h, ha⟩ := hp.at
    have hp' : Pre c R s (G1 ++ (a, l0 ++ kf :: k :: r) :: G2) := by simpa using hp
    obtain ⟨hf, haf⟩ := hp'.at
    have hA := A_pos c
    have hmin := haf.min
    have h1 : k.p = kf.p + kf.size + c.inter := haf.right.1
    have hpf := ha.ok.prevFree
    have hps := ha.ok.prevSz h0
    rw [hsz] at hpf hps
    have hpf' : h.prevFree = true := by rw [hpf, decide_eq_true_eq]; omega
    have hq : k.p - c.inter - h.prevSz = kf.p := by rw [hps]; omega
    have hc1 : hf.freed = true ∧ (!hf.delay) = true ∧ hf.size = h.prevSz := by
      refine ⟨by rw [haf.ok.freed, hkf]; rfl, by rw [haf.ok.delay, hkf]; rfl, ?_⟩
      rw [haf.ok.size, hps]
    have hmem := hp'.free_mem hkf
    have hhi := ha.hi
    have hcm := ha.commit
    have hspan := ha.span
    have hbase := ha.base
    have hlof := haf.lo
    have hu : u32 (kf.size + k.size + c.inter) = kf.size + k.size + c.inter := by
      unfold u32; rw [Nat.mod_eq_of_lt]; omega
    refine ⟨(unfree s (bucketIndex c kf.size) kf.p).put kf.p
      { hf with size := kf.size + k.size + c.inter }, l0, ⟨kf.p, kf.size + k.size + c.inter, .held x⟩, ?_, ?_, ?_, rfl, haf.nofree hkf,
      fun k hk => hl k (by simp [hk]), ?_, by simp only; omega, by simp only; omega⟩
    · unfold mergePrev
      simp only [ha.hdr, hpf', if_true, hq, haf.hdr]
      rw [if_pos hc1]
      simp only [haf.ok.size, removeFree_spec hmem, ha.ok.size, hu]
    · exact ⟨rfl, rfl, rfl, rfl, rfl⟩
    · have hnf : ∀ y, (CS.held y) ≠ .free := fun y h => by cases h
      have hnd : ∀ y, (CS.held y) ≠ .delay := fun y h => by cases h
      have hle := ha.right.le
      refine hp'.edit haf.left ?_ ?_ hp.geo_at rfl rfl (Nat.le_refl _) rfl ?_ ?_ ?_ ?_ ?_ ?_
      · refine ⟨rfl, by simp only; omega, ?_, ⟨{ hf with size := kf.size + k.size + c.inter }, ?_, ?_⟩,
          (fun h => by cases h), ?_⟩
        · have h2 := ha.dvd
          have h3 := haf.dvd
          exact Nat.dvd_add (Nat.dvd_add h3 h2) (A_inter hc)
        · rw [put_hdr, if_pos rfl]
        · exact ⟨rfl, by rw [show ({ hf with size := kf.size + k.size + c.inter } : Hdr).freed = hf.freed
            from rfl, hc1.1]; rfl, by
            have := hc1.2.1
            simp only [Bool.not_eq_true'] at this
            rw [show ({ hf with size := kf.size + k.size + c.inter } : Hdr).delay = hf.delay
            from rfl, this]; rfl, haf.ok.mmap, haf.ok.prevFree, haf.ok.prevSz, fun r hr => by cases hr⟩
        · have := ha.right
          rw [show k.fsz = x by unfold Ck.fsz; rw [hx]] at this
          rw [show (⟨kf.p, kf.size + k.size + c.inter, CS.held x⟩ : Ck).fsz = x from rfl]
          rw [show kf.p + (⟨kf.p, kf.size + k.size + c.inter, CS.held x⟩ : Ck).size + c.inter
            = k.p + k.size + c.inter by simp only; omega]
          refine this.frame fun y hy _ => ?_
          rw [put_hdr, if_neg (by omega)]
          rfl
      · rw [put_arenas, unfree, hp.arenas]; simp
      · intro p hpn
        rw [put_hdr, if_neg (by omega)]
        rfl
      · intro b X hX
        rw [fr_cons_free hkf, fr_cons_not (k := k) (by rw [hx]; exact hnf _), List.append_assoc] at hX
        rw [fr_cons_not (hnf _)]
        exact erase_free b _ hX
      · intro X hX
        rw [dl_cons_not (by rw [hkf]; intro h; cases h), dl_cons_not (k := k) (by rw [hx]; exact hnd _)] at hX
        rw [dl_cons_not (hnd _)]; exact hX
      · rw [dl_cons_not (k := kf) (by rw [hkf]; intro h; cases h),
          dl_cons_not (k := k) (by rw [hx]; exact hnd _),
          dl_cons_not (k := ⟨kf.p, kf.size + k.size + c.inter, .held x⟩) (hnd _)]; rfl
      · rw [db_cons_not (k := kf) (by rw [hkf]; intro h; cases h),
          db_cons_not (k := k) (by rw [hx]; exact hnd _),
          db_cons_not (k := ⟨kf.p, kf.size + k.size + c.inter, .held x⟩) (hnd _)]; rfl
      · intro p h' g1 g2 g3 g4
        by_cases hpk : p = kf.p
        · exact ⟨_, List.mem_cons_self .., hpk.symm⟩
        · rw [put_hdr, if_neg hpk] at g3
          obtain ⟨k', hk', hkp, hkf'⟩ := hp'.stale_in haf.left g1 g2 g3 g4
          rcases List.mem_cons.1 hk' with rfl | hk'
          · rw [hkf] at hkf'; cases hkf'
          · rcases List.mem_cons.1 hk' with rfl | hk'
            · rw [hx] at hkf'; cases hkf'
            · exact ⟨k', List.mem_cons_of_mem _ hk', hkp⟩
    · rw [solids_append, solids_free hkf]; simp [solids]

theorem Rep.firm {hdr : Nat → Option Hdr} {p pf q pf' : Nat} (h : Rep c hdr p pf r q pf')
    (hpf : pf ≠ 0) (hq : Quiet r) : Firm r := by
  cases r with
  | nil => intro k hk; cases hk
  | cons k1 r =>
    intro k hk hf
    cases hk
    have h1 := hq k1 (by simp)
    cases hst : k1.st with
    | delay => rfl
    | free => exact absurd (h.2.2.2.2.1 hst) hpf
    | pop => exact absurd hst h1.1
    | held x => exact absurd hst (h1.2 x)
    | live r => rw [hst] at hf; cases hf
    | raw => rw [hst] at hf; cases hf

/-- Chunk `k` (held) swallows the free chunk after it. -/
theorem swallow_spec (hc : CfgOk c) {kn : Ck}
    (hp : Pre c R s (G1 ++ (a, l ++ k :: kn :: r) :: G2)) (hx : k.st = .held x) (hkn : kn.st = .free)
    {h : Hdr} (hh : s.hdr k.p = some h) :
    Pre c R ((unfree s (bucketIndex c kn.size) kn.p).put k.p
      { h with size := k.size + kn.size + c.inter })
      (G1 ++ (a, l ++ ⟨k.p, k.size + kn.size + c.inter, .held kn.size⟩ :: r) :: G2) := by
  obtain ⟨h', ha⟩ := hp.at
  have hp' : Pre c R s (G1 ++ (a, (l ++ [k]) ++ kn :: r) :: G2) := by simpa using hp
  obtain ⟨hf, haf⟩ := hp'.at
  have := ha.hdr
  rw [hh] at this
  cases this
  have hA := A_pos c
  have hmin := ha.min
  have h1 : kn.p = k.p + k.size + c.inter := ha.right.1
  have hhi := haf.hi
  have hcm := ha.commit
  have hspan := ha.span
  have hbase := ha.base
  have hlof := ha.lo
  have hnf : ∀ y, (CS.held y) ≠ .free := fun y h => by cases h
  have hnd : ∀ y, (CS.held y) ≠ .delay := fun y h => by cases h
  have hle := haf.right.le
  refine hp.edit ha.left ?_ ?_ hp.geo_at rfl rfl (Nat.le_refl _) rfl ?_ ?_ ?_ ?_ ?_ ?_
  · refine ⟨rfl, by simp only; omega, ?_, ⟨{ h with size := k.size + kn.size + c.inter }, ?_, ?_⟩,
      (fun h => by cases h), ?_⟩
    · exact Nat.dvd_add (Nat.dvd_add ha.dvd haf.dvd) (A_inter hc)
    · rw [put_hdr, if_pos rfl]
    · refine ⟨rfl, ?_, ?_, ha.ok.mmap, ha.ok.prevFree, ha.ok.prevSz, fun r hr => by cases hr⟩
      · have := ha.ok.freed
        rw [hx] at this
        exact this
      · have := ha.ok.delay
        rw [hx] at this
        exact this
    · have := haf.right
      rw [show kn.fsz = kn.size by unfold Ck.fsz; rw [hkn]] at this
      rw [show (⟨k.p, k.size + kn.size + c.inter, CS.held kn.size⟩ : Ck).fsz = kn.size from rfl]
      rw [show k.p + (⟨k.p, k.size + kn.size + c.inter, CS.held kn.size⟩ : Ck).size + c.inter
        = kn.p + kn.size + c.inter by simp only; omega]
      refine this.frame fun y hy _ => ?_
      rw [put_hdr, if_neg (by omega)]
      rfl
  · rw [put_arenas, unfree, hp.arenas]; simp
  · intro p hpn
    rw [put_hdr, if_neg (by omega)]
    rfl
  · intro b X hX
    rw [fr_cons_not (k := k) (by rw [hx]; exact hnf _), fr_cons_free hkn, List.append_assoc] at hX
    rw [fr_cons_not (hnf _)]
    exact erase_free b _ hX
  · intro X hX
    rw [dl_cons_not (k := k) (by rw [hx]; exact hnd _),
      dl_cons_not (by rw [hkn]; intro h; cases h)] at hX
    rw [dl_cons_not (hnd _)]; exact hX
  · rw [dl_cons_not (k := k) (by rw [hx]; exact hnd _),
      dl_cons_not (k := kn) (by rw [hkn]; intro h; cases h),
      dl_cons_not (k := ⟨k.p, k.size + kn.size + c.inter, .held kn.size⟩) (hnd _)]; rfl
  · rw [db_cons_not (k := k) (by rw [hx]; exact hnd _),
      db_cons_not (k := kn) (by rw [hkn]; intro h; cases h),
      db_cons_not (k := ⟨k.p, k.size + kn.size + c.inter, .held kn.size⟩) (hnd _)]; rfl
  · intro p h' g1 g2 g3 g4
    by_cases hpk : p = k.p
    · exact ⟨_, List.mem_cons_self .., hpk.symm⟩
    · rw [put_hdr, if_neg hpk] at g3
      obtain ⟨k', hk', hkp, hkf'⟩ := hp.stale_in ha.left g1 g2 g3 g4
      rcases List.mem_cons.1 hk' with rfl | hk'
      · rw [hx] at hkf'; cases hkf'
      · rcases List.mem_cons.1 hk' with rfl | hk'
        · rw [hkn] at hkf'; cases hkf'
        · exact ⟨k', List.mem_cons_of_mem _ hk', hkp⟩

theorem mergeNext_spec (hc : CfgOk c) (hp : Pre c R s (G1 ++ (a, l ++ k :: r) :: G2))
    (hn : n ≤ G1.length) (hx : k.st = .held x) (hr : Quiet r) (p : Nat) :
    ∃ s' a' k' r' y, mergeNext c n s p k.p = some s' ∧ a.eqv a' ∧ Same s s' ∧
      Pre c R s' (G1 ++ (a', l ++ k' :: r') :: G2) ∧ k'.st = .held y ∧ k'.p = k.p ∧ Quiet r' ∧
      Firm r' ∧ solids r' = solids r := by
  obtain ⟨h, ha⟩ := hp.at
  have hA := A_pos c
  have hother : Firm r → ∃ s' a' y, (if k.p ≠ p then setPrev c n s k.p else some s) = some s' ∧
      a.eqv a' ∧ Same s s' ∧ Pre c R s' (G1 ++ (a', l ++ { k with st := .held y } :: r) :: G2) := by
    intro hfirm
    by_cases hpp : k.p ≠ p
    · obtain ⟨s', a', h1, h2, h3, h4⟩ := setPrev_spec hp hn hx hfirm
      exact ⟨s', a', k.size, by rw [if_pos hpp]; exact h1, h2, h3, h4⟩
    · refine ⟨s, a, x, by rw [if_neg hpp], Arena.eqv.refl a, Same.refl s, ?_⟩
      have : ({ k with st := .held x } : Ck) = k := by rw [← hx]
      rw [this]; exact hp
  unfold mergeNext
  simp only [ha.hdr, ha.ok.size]
  cases r with
  | nil =>
    have hfirm : Firm [] := fun k hk => by cases hk
    obtain ⟨s', a', y, h1, h2, h3, h4⟩ := hother hfirm
    rw [hp.nextForward_nil hn]
    exact ⟨s', a', _, [], y, h1, h2, h3, h4, rfl, rfl, hr, hfirm, rfl⟩
  | cons kn r =>
    rw [hp.nextForward_cons hn]
    obtain ⟨g1, g2, g3, ⟨hf, g4, g5⟩, g6, g7⟩ := ha.right
    rw [← g1] at g4
    simp only [g4]
    by_cases hkn : kn.st = .free
    · have hcond : (hf.freed && !hf.delay) = true := by
        rw [g5.freed, g5.delay, hkn]; rfl
      simp only [hcond, if_true]
      have hp' : Pre c R s (G1 ++ (a, (l ++ [k]) ++ kn :: r) :: G2) := by simpa using hp
      have hmem := hp'.free_mem hkn
      obtain ⟨_, haf⟩ := hp'.at
      have hhi := haf.hi
      have hcm := ha.commit
      have hspan := ha.span
      have hbase := ha.base
      have hlof := ha.lo
      have hu : u32 (k.size + kn.size + c.inter) = k.size + kn.size + c.inter := by
        unfold u32; rw [Nat.mod_eq_of_lt]; omega
      rw [g5.size, removeFree_spec hmem]
      simp only [hu]
      have hs := swallow_spec hc hp hx hkn ha.hdr
      have hq' : Quiet r := fun k hk => hr k (by simp [hk])
      have hfirm : Firm r := by
        rw [show kn.fsz = kn.size by unfold Ck.fsz; rw [hkn]] at g7
        exact g7.firm (by omega) hq'
      obtain ⟨s', a', h1, h2, h3, h4⟩ := setPrev_spec hs hn rfl hfirm
      refine ⟨s', a', _, r, _, h1, h2, ?_, h4, rfl, rfl, hq', hfirm, ?_⟩
      · exact ⟨h3.mem, h3.delay, h3.dChunks, h3.dBytes, h3.maps⟩
      · rw [solids_free hkn]
    · have hfirm : Firm (kn :: r) := by
        intro k hk hf
        cases hk
        have h1 := hr kn (by simp)
        cases hst : kn.st with
        | delay => rfl
        | free => exact absurd hst hkn
        | pop => exact absurd hst h1.1
        | held x => exact absurd hst (h1.2 x)
        | live r => rw [hst] at hf; cases hf
        | raw => rw [hst] at hf; cases hf
      have hcond : (hf.freed && !hf.delay) = false := by
        rw [g5.freed, g5.delay]
        cases hfr : kn.st.freed with
        | false => rfl
        | true => rw [hfirm kn (by simp) hfr]; rfl
      simp only [hcond, Bool.false_eq_true, if_false]
      obtain ⟨s', a', y, h1, h2, h3, h4⟩ := hother hfirm
      exact ⟨s', a', _, _, y, h1, h2, h3, h4, rfl, rfl, hr, hfirm, rfl⟩

/-! ## Giving memory back -/

theorem alignUp_dvd (x : Nat) {a : Nat} : a ∣ alignUp x a := Nat.dvd_mul_left _ _

theorem le_alignUp (x : Nat) {a : Nat} (ha : 0 < a) : x ≤ alignUp x a := by
  unfold alignUp
  have h1 := Nat.div_add_mod (x + (a - 1)) a
  have h2 := Nat.mod_lt (x + (a - 1)) ha
  rw [Nat.mul_comm] at h1
  omega

theorem alignUp_le {x a y : Nat} (hxy : x ≤ y) (hy : a ∣ y) : alignUp x a ≤ y := by
  obtain ⟨z, rfl⟩ := hy
  unfold alignUp
  rcases Nat.eq_zero_or_pos a with rfl | ha
  · simp
  rw [Nat.mul_comm a z]
  refine Nat.mul_le_mul_right a ?_
  rw [Nat.lt_succ_iff.symm, Nat.div_lt_iff_lt_mul ha, Nat.succ_mul, Nat.mul_comm z a]
  omega

theorem Pre.index (hp : Pre c R s (G1 ++ (a, l) :: G2)) {i : Nat} {b : Arena} {y : Nat}
    (hi : s.arenas[i]? = some b) (h1 : a.base < y) (h2 : y ≤ a.commit) (h3 : b.base < y)
    (h4 : y ≤ b.commit) : i = G1.length ∧ b = a := by
  rw [hp.arenas, List.map_append, List.map_cons] at hi
  rcases Nat.lt_trichotomy i G1.length with h | h | h
  · rw [List.getElem?_append_left (by simpa using h)] at hi
    have hb := List.mem_of_getElem? hi
    obtain ⟨g, hg, rfl⟩ := List.mem_map.1 hb
    have := hp.arena_disj (Or.inl hg)
    simp only [Disj] at this
    omega
  · rw [List.getElem?_append_right (by simp [h])] at hi
    simp only [List.length_map, h, Nat.sub_self, List.getElem?_cons_zero, Option.some.injEq] at hi
    exact ⟨h, hi.symm⟩
  · rw [List.getElem?_append_right (by simp; omega)] at hi
    simp only [List.length_map] at hi
    rw [show i - G1.length = (i - G1.length - 1) + 1 by omega, List.getElem?_cons_succ] at hi
    have hb := List.mem_of_getElem? hi
    obtain ⟨g, hg, rfl⟩ := List.mem_map.1 hb
    have := hp.arena_disj (Or.inr hg)
    simp only [Disj] at this
    omega

theorem wholeArena_some {t size : Nat} : ∀ {as : List Arena} {m i : Nat} {b : Arena},
    wholeArena c t size as m = some (i, b) →
      m ≤ i ∧ as[i - m]? = some b ∧ t = b.start ∧ t + size + c.inter = b.next := by
  intro as
  induction as with
  | nil => intro m i b h; cases h
  | cons a as ih =>
    intro m i b h
    unfold wholeArena at h
    split at h
    · next hc =>
      cases h
      exact ⟨Nat.le_refl _, by simp, hc.1, hc.2⟩
    · obtain ⟨h1, h2, h3, h4⟩ := ih h
      refine ⟨by omega, ?_, h3, h4⟩
      rw [show i - m = (i - (m + 1)) + 1 by omega, List.getElem?_cons_succ]
      exact h2

/-- An arena without chunks in use disappears. -/
theorem Pre.remove {cs : List Ck} {s' : St} (hp : Pre c R s (G1 ++ (a, cs) :: G2)) (hG1 : G1 ≠ [])
    (har : s'.arenas = (G1 ++ G2).map Prod.fst) (hmaps : s'.maps = s.maps)
    (hhdr : ∀ p, s'.hdr p = if a.base ≤ p ∧ p < a.commit then none else s.hdr p)
    (hcs : ∀ k ∈ cs, ∃ x, k.st = .held x) (hfree : s'.free = s.free) (hdelay : s'.delay = s.delay)
    (hdc : s'.dChunks = s.dChunks) (hdb : s'.dBytes = s.dBytes) : Pre c R s' (G1 ++ G2) := by
  have hmem : ∀ g, g ∈ G1 ++ G2 → g ∈ G1 ++ (a, cs) :: G2 ∧ (g ∈ G1 ∨ g ∈ G2) := by
    intro g hg
    rcases List.mem_append.1 hg with h | h <;> simp [h]
  have hsub : (G1 ++ G2).Sublist (G1 ++ (a, cs) :: G2) :=
    (List.Sublist.refl G1).append (List.sublist_cons_self _ _)
  have hfr : ∀ b, fr c b cs = [] := by
    intro b
    unfold fr
    rw [List.map_eq_nil_iff, List.filter_eq_nil_iff]
    intro k hk
    obtain ⟨x, hx⟩ := hcs k hk
    simp [hx]
  have hdl : cs.filter (fun k => decide (k.st = .delay)) = [] := by
    rw [List.filter_eq_nil_iff]
    intro k hk
    obtain ⟨x, hx⟩ := hcs k hk
    simp [hx]
  have hch : chunks (G1 ++ G2) = chunks G1 ++ chunks G2 := by simp [chunks]
  have hdl' : dl cs = [] := by unfold dl; rw [hdl]; rfl
  have hdb' : db cs = 0 := by unfold db; rw [hdl]; rfl
  constructor
  · exact har
  · simp [hG1]
  · intro g hg; exact hp.geo g (hmem g hg).1
  · intro g hg
    refine (hp.rep g (hmem g hg).1).frame fun x h1 h2 => ?_
    have hd := hp.arena_disj (hmem g hg).2
    have hg2 := hp.geo g (hmem g hg).1
    have h3 := hg2.base
    have h4 := hg2.commit
    have h5 := inter_pos c
    simp only [Disj] at hd
    rw [hhdr, if_neg (by omega)]
  · have h := hp.regs
    rw [hp.arenas] at h
    rw [har, hmaps]
    refine h.sublist ?_
    unfold Al.regs
    exact ((hsub.map _).map _).append (List.Sublist.refl _)
  · intro b
    have h := hp.free b
    rw [chunks_mid, fr_append, fr_append, hfr, List.nil_append] at h
    rw [hfree, hch, fr_append]; exact h
  · have h := hp.delay
    rw [chunks_mid, dl_append, dl_append, hdl', List.nil_append] at h
    rw [hdelay, hch, dl_append]; exact h
  · have h := hp.dChunks
    rw [chunks_mid, dl_append, dl_append, hdl', List.nil_append] at h
    rw [hdc, hch, dl_append]; exact h
  · have h := hp.dBytes
    rw [chunks_mid, db_append, db_append, hdb', Nat.zero_add] at h
    rw [hdb, hch, db_append]; exact h
  · intro x hx
    rw [hmaps] at hx
    have h1 := hp.maps x hx
    have hd := hp.map_disj (g := (a, cs)) (by simp) hx
    have hf : s'.hdr x.ptr = s.hdr x.ptr := by
      have h2 := h1.pos
      have h3 := h1.fits
      simp only [Disj] at hd
      rw [hhdr, if_neg (by omega)]
    exact { h1 with hdr := by rw [hf]; exact h1.hdr }
  · intro p h hh hf
    rw [hhdr] at hh
    split at hh
    · cases hh
    · next hin =>
      rcases hp.stale p h hh hf with ⟨k, hk, hkp⟩ | ⟨x, hx, hxp⟩
      · left
        refine ⟨k, ?_, hkp⟩
        rw [chunks_mid] at hk
        rw [hch]
        simp only [List.mem_append] at hk ⊢
        rcases hk with h | h | h
        · exact Or.inl h
        · exfalso
          have h3 := hp.chunk_in (g := (a, cs)) (by simp) h
          simp only at h3
          omega
        · exact Or.inr h
      · right; exact ⟨x, by rw [hmaps]; exact hx, hxp⟩
  · intro k hk hd
    refine hp.dz k ?_ hd
    rw [hch] at hk
    rw [chunks_mid]
    simp only [List.mem_append] at hk ⊢
    rcases hk with h | h
    · exact Or.inl h
    · exact Or.inr (Or.inr h)

theorem Rep.nil_of_end {hdr : Nat → Option Hdr} {p pf pf' : Nat} (h : Rep c hdr p pf r p pf') :
    r = [] := by
  cases r with
  | nil => rfl
  | cons k r =>
    have h1 := h.2.1
    have h2 := h.2.2.2.2.2.le
    have h3 := A_pos c
    omega

theorem giveBack_spec (hp : Pre c R s (G1 ++ (a, l ++ k :: r) :: G2)) (hn : n ≤ G1.length)
    (hx : k.st = .held x) (hl : lastFsz l = 0) (os : Os) :
    giveBack c os n s k.p = some (s, some k.p) ∨
    ∃ s' G', giveBack c os n s k.p = some (s', none) ∧ Same s s' ∧ Pre c R s' G' ∧ r = [] ∧
      ((l = [] ∧ G1 ≠ [] ∧ G' = G1 ++ G2) ∨ ∃ a', G' = G1 ++ (a', l) :: G2) := by
  obtain ⟨h, ha⟩ := hp.at
  have hA := A_pos c
  have hI := inter_pos c
  have hlo := ha.lo
  have hhi := ha.hi
  have hbase := ha.base
  have hcm := ha.commit
  have hgeo := hp.geo_at
  unfold giveBack
  simp only [ha.hdr, ha.ok.size]
  split
  · left; rfl
  · have hdrop : ∀ i, (s.arenas.drop n)[i]? = s.arenas[n + i]? := fun i => List.getElem?_drop
    cases has : s.arenas.drop n with
    | nil => left; rfl
    | cons a0 as =>
      simp only []
      have h0 : s.arenas[n]? = some a0 := by
        have := hdrop 0
        rw [has, List.getElem?_cons_zero, Nat.add_zero] at this
        exact this.symm
      by_cases hb : a0.brk = true ∧ k.p + k.size + c.inter = a0.next
      · simp only [if_pos hb]
        right
        have hmem0 : a0 ∈ s.arenas := List.mem_of_getElem? h0
        have hgeo0 : AGeo c a0 := by
          rw [hp.arenas] at hmem0
          obtain ⟨g, hg, rfl⟩ := List.mem_map.1 hmem0
          exact hp.geo g hg
        have g1 := hgeo0.base
        have g2 := hgeo0.next
        have g3 := hgeo0.commit
        obtain ⟨hnG, rfl⟩ := hp.index h0 (y := a0.next) (by omega) (by omega) (by omega) g3
        have hr : r = [] := by
          have := ha.right
          rw [← hb.2] at this
          exact this.nil_of_end
        subst hr
        subst hnG
        have hbrk : (if os.shrink then alignUp k.p page else a0.commit) ≤ a0.commit ∧
            k.p ≤ (if os.shrink then alignUp k.p page else a0.commit) ∧
            page ∣ (if os.shrink then alignUp k.p page else a0.commit) := by
          split
          · exact ⟨alignUp_le (by omega) hgeo.pages, le_alignUp _ (by decide), alignUp_dvd _⟩
          · exact ⟨Nat.le_refl _, by omega, hgeo.pages⟩
        generalize (if os.shrink then alignUp k.p page else a0.commit) = brk at hbrk ⊢
        have hspan := hgeo.span
        refine ⟨_, G1 ++ ({ a0 with commit := brk, next := k.p, prevFree := 0 }, l) :: G2, rfl,
          ⟨rfl, rfl, rfl, rfl, rfl⟩, ?_, rfl, Or.inr ⟨_, rfl⟩⟩
        have hed := hp.edit (T' := []) (a' := { a0 with commit := brk, next := k.p, prevFree := 0 })
          (s' := { s.wipe brk a0.commit with
            arenas := s.arenas.modify G1.length fun a =>
              { a with commit := brk, next := k.p, prevFree := 0 } })
          ha.left ⟨rfl, hl⟩ (hp.modify _)
          ⟨hgeo.start, hgeo.base, hlo, hbrk.2.1, hbrk.2.2, by simp only; omega⟩ rfl rfl hbrk.1 rfl
          ?_ ?_ ?_ ?_ ?_ ?_
        · simpa using hed
        · intro p hpn
          simp only [St.wipe]
          rw [if_neg (by omega)]
        · intro b X hX
          rw [fr_cons_not (by rw [hx]; intro h; cases h)] at hX
          exact hX
        · intro X hX
          rw [dl_cons_not (by rw [hx]; intro h; cases h)] at hX
          exact hX
        · rw [dl_cons_not (by rw [hx]; intro h; cases h)]; rfl
        · rw [db_cons_not (by rw [hx]; intro h; cases h)]; rfl
        · intro p h' g1 g2 g3 g4
          simp only [St.wipe] at g3
          split at g3
          · cases g3
          · obtain ⟨k', hk', hkp, hkf'⟩ := hp.stale_in ha.left g1 g2 g3 g4
            rcases List.mem_singleton.1 hk' with rfl
            rw [hx] at hkf'; cases hkf'
      · simp only [if_neg hb]
        cases hw : wholeArena c k.p k.size as (n + 1) with
        | none => left; rfl
        | some ib =>
          obtain ⟨i, b⟩ := ib
          right
          obtain ⟨w1, w2, w3, w4⟩ := wholeArena_some hw
          have hib : s.arenas[i]? = some b := by
            have := hdrop (i - (n + 1) + 1)
            rw [has, List.getElem?_cons_succ, w2] at this
            rw [this]; congr 1; omega
          have hmem0 : b ∈ s.arenas := List.mem_of_getElem? hib
          have hgeo0 : AGeo c b := by
            rw [hp.arenas] at hmem0
            obtain ⟨g, hg, rfl⟩ := List.mem_map.1 hmem0
            exact hp.geo g hg
          have g1 := hgeo0.base
          have g2 := hgeo0.next
          have g3 := hgeo0.commit
          obtain ⟨rfl, rfl⟩ := hp.index hib (y := b.next) (by omega) (by omega) (by omega) g3
          have hr : r = [] := by
            have := ha.right
            rw [w4] at this
            exact this.nil_of_end
          subst hr
          have hl0 : l = [] := by
            have := ha.left
            rw [w3] at this
            exact this.nil_of_end
          subst hl0
          have hG1 : G1 ≠ [] := by
            intro h; rw [h] at w1; simp at w1
          refine ⟨_, G1 ++ G2, rfl, ⟨rfl, rfl, rfl, rfl, rfl⟩, ?_, rfl, Or.inl ⟨rfl, hG1, rfl⟩⟩
          refine hp.remove hG1 ?_ rfl (fun p => rfl) ?_ rfl rfl rfl rfl
          · simp only
            rw [hp.arenas, List.map_append, List.map_cons, List.eraseIdx_append_of_length_le (by simp)]
            simp
          · intro k' hk'
            rcases List.mem_singleton.1 hk' with rfl
            exact ⟨x, hx⟩

/-! ## Putting a chunk onto its free list -/

theorem addFree_spec (hp : Pre c R s (G1 ++ (a, l ++ k :: r) :: G2)) (hx : k.st = .held k.size)
    (hl : lastFsz l = 0) :
    ∃ s', addFree c s k.p = some s' ∧ Same s s' ∧
      Pre c R s' (G1 ++ (a, l ++ { k with st := .free } :: r) :: G2) := by
  obtain ⟨h, ha⟩ := hp.at
  unfold addFree
  simp only [ha.hdr, ha.ok.size]
  refine ⟨_, rfl, ⟨rfl, rfl, rfl, rfl, rfl⟩, ?_⟩
  refine hp.edit ha.left ?_ (by simp only; rw [hp.arenas]; simp) hp.geo_at rfl rfl (Nat.le_refl _)
    rfl (fun _ _ => rfl) ?_ ?_ ?_ ?_ ?_
  · refine ⟨rfl, ha.min, ha.dvd, ⟨h, ha.hdr, ha.ok.size, ?_, ?_, ha.ok.mmap, ha.ok.prevFree,
      ha.ok.prevSz, fun r hr => by cases hr⟩, fun _ => hl, ?_⟩
    · rw [ha.ok.freed, hx]; rfl
    · rw [ha.ok.delay, hx]; rfl
    · have := ha.right
      rw [show k.fsz = k.size by unfold Ck.fsz; rw [hx]] at this
      exact this
  · intro b X hX
    rw [fr_cons_not (by rw [hx]; intro h; cases h)] at hX
    rw [fr_cons_free rfl]
    simp only
    by_cases hb : bucketIndex c k.size = b
    · subst hb
      rw [if_pos rfl, if_pos rfl, List.append_assoc]
      exact (List.perm_append_comm (l₁ := s.free _) (l₂ := [k.p])).trans
        (List.Perm.append_left [k.p] hX)
    · rw [if_neg hb, if_neg (Ne.symm hb)]; simpa using hX
  · intro X hX
    rw [dl_cons_not (by rw [hx]; intro h; cases h)] at hX
    rw [dl_cons_not (by intro h; cases h)]
    exact hX
  · rw [dl_cons_not (k := k) (by rw [hx]; intro h; cases h),
      dl_cons_not (k := { k with st := .free }) (by intro h; cases h)]
  · rw [db_cons_not (k := k) (by rw [hx]; intro h; cases h),
      db_cons_not (k := { k with st := .free }) (by intro h; cases h)]
  · intro p h' g1 g2 g3 g4
    obtain ⟨k', hk', hkp, hkf'⟩ := hp.stale_in ha.left g1 g2 g3 g4
    rcases List.mem_cons.1 hk' with rfl | hk'
    · rw [hx] at hkf'; cases hkf'
    · exact ⟨k', List.mem_cons_of_mem _ hk', hkp⟩

/-- A freed chunk is merged with its neighbours and goes onto its free list or back to the system;
nothing else changes. -/
theorem coalesceAdd_spec (hc : CfgOk c) (hp : Pre c R s (G1 ++ (a, l ++ k :: r) :: G2))
    (hn : n ≤ G1.length) (hx : k.st = .held x) (hl : NoHeld l) (hr : Quiet r)
    (h1 : NoHeld (chunks G1)) (h2 : NoHeld (chunks G2)) (os : Os) :
    ∃ s' G', coalesceAdd c os n s k.p = some s' ∧ Same s s' ∧ Pre c R s' G' ∧ NoHeld (chunks G') ∧
      solids (chunks G') = solids (chunks (G1 ++ (a, l ++ k :: r) :: G2)) := by
  obtain ⟨s1, l1, k1, e1, S1, P1, hx1, hl1, nh1, so1, -, -⟩ := mergePrev_spec hc hp hx hl
  obtain ⟨s2, a2, k2, r2, y, e2, A2, S2, P2, hx2, hk2, q2, f2, so2⟩ :=
    mergeNext_spec hc P1 hn hx1 hr k.p
  have hso : ∀ (a' : Arena) (k' : Ck) (r' : List Ck), solids (k' :: r') = solids r →
      solids (chunks (G1 ++ (a', l1 ++ k' :: r') :: G2)) =
        solids (chunks (G1 ++ (a, l ++ k :: r) :: G2)) := by
    intro a' k' r' hs
    rw [chunks_mid, chunks_mid]
    simp only [solids_append, so1, hs, solids_held hx]
  unfold coalesceAdd coalesce
  simp only [e1, ← hk2]
  rw [← hk2] at e2
  simp only [e2]
  rcases giveBack_spec P2 hn hx2 hl1 os with e3 | ⟨s3, G3, e3, S3, P3, hr3, hG3⟩
  · simp only [e3]
    obtain ⟨s4, a4, e4, A4, S4, P4⟩ := setPrev_spec P2 hn hx2 f2
    simp only [e4]
    obtain ⟨s5, e5, S5, P5⟩ := addFree_spec P4 rfl hl1
    refine ⟨s5, _, e5, ((S1.trans S2).trans S4).trans S5, P5, ?_, ?_⟩
    · intro k' hk' x'
      rw [chunks_mid] at hk'
      rcases List.mem_append.1 hk' with h | h
      · exact h1 k' h x'
      · rcases List.mem_append.1 h with h | h
        · rcases List.mem_append.1 h with h | h
          · exact nh1 k' h x'
          · rcases List.mem_cons.1 h with rfl | h
            · intro h; cases h
            · exact (q2 k' h).2 x'
        · exact h2 k' h x'
    · refine hso _ _ _ ?_
      rw [solids_free rfl, so2]
  · simp only [e3]
    refine ⟨s3, G3, rfl, (S1.trans S2).trans S3, P3, ?_, ?_⟩
    · intro k' hk' x'
      rcases hG3 with ⟨_, _, rfl⟩ | ⟨a', rfl⟩
      · rw [show chunks (G1 ++ G2) = chunks G1 ++ chunks G2 by simp [chunks]] at hk'
        rcases List.mem_append.1 hk' with h | h
        · exact h1 k' h x'
        · exact h2 k' h x'
      · rw [chunks_mid] at hk'
        rcases List.mem_append.1 hk' with h | h
        · exact h1 k' h x'
        · rcases List.mem_append.1 h with h | h
          · exact nh1 k' h x'
          · exact h2 k' h x'
    · subst hr3
      have h0 := hso a k2 [] (by rw [solids_held hx2]; exact so2)
      rw [← h0]
      rcases hG3 with ⟨rfl, _, rfl⟩ | ⟨a', rfl⟩
      · rw [show chunks (G1 ++ G2) = chunks G1 ++ chunks G2 by simp [chunks], chunks_mid]
        simp only [solids_append, List.nil_append, List.cons_append, solids_held hx2]
      · rw [chunks_mid, chunks_mid]
        simp only [solids_append, solids_held hx2]
        simp [solids]

end Verif.Al
