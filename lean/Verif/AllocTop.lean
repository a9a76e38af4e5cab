import Verif.AllocGet

/-!
# Complete calls: `malloc`, `memalign`, `realloc`
-/
namespace Verif.Al

variable {c : Cfg} {R : Nat → Nat} {s : St} {G G1 G2 : List (Arena × List Ck)} {a : Arena}
  {l r : List Ck} {k : Ck} {n x : Nat}

theorem u32_diff {size req : Nat} (h : req ≤ size) (h' : size < 2 ^ 32) :
    u32 (size + 2 ^ 32 - req) = size - req := by
  unfold u32
  rw [show size + 2 ^ 32 - req = (size - req) + 2 ^ 32 by omega, Nat.add_mod_right,
    Nat.mod_eq_of_lt (by omega)]

theorem Pre.size_lt (hp : Pre c R s (G1 ++ (a, l ++ k :: r) :: G2)) : k.size < 2 ^ 32 := by
  obtain ⟨h, ha⟩ := hp.at
  have := ha.span
  have := ha.hi
  have := ha.commit
  have := ha.lo
  have := ha.base
  omega

/-- Recording the request. -/
theorem record_spec (hp : Pre c R s (G1 ++ (a, l ++ k :: r) :: G2)) (hk : k.st = .raw) {h : Hdr}
    (hh : s.hdr k.p = some h) {req : Nat} (hreq : req ≤ k.size) :
    Pre c R (s.put k.p { h with reqDiff := u32 (h.size + 2 ^ 32 - req) })
      (G1 ++ (a, l ++ { k with st := .live req } :: r) :: G2) := by
  obtain ⟨h', ha⟩ := hp.at
  have := ha.hdr
  rw [hh] at this
  cases this
  refine hp.restate rfl rfl rfl rfl rfl ?_ ?_ (fun h => by cases h) ?_ ?_ ?_ ?_
  · unfold Ck.fsz; rw [hk]
  · refine ⟨ha.ok.size, ?_, ?_, ha.ok.mmap, ha.ok.prevFree, ha.ok.prevSz, fun q hq => ?_⟩
    · have := ha.ok.freed; rw [hk] at this; exact this
    · have := ha.ok.delay; rw [hk] at this; exact this
    · cases hq
      refine ⟨hreq, ?_⟩
      simp only [ha.ok.size]
      exact u32_diff hreq hp.size_lt
  · intro b X hX
    rw [fr_cons_not (by rw [hk]; intro h; cases h)] at hX
    rw [fr_cons_not (by intro h; cases h)]; exact hX
  · intro X hX
    rw [dl_cons_not (by rw [hk]; intro h; cases h)] at hX
    rw [dl_cons_not (by intro h; cases h)]; exact hX
  · rw [dl_cons_not (k := k) (by rw [hk]; intro h; cases h),
      dl_cons_not (k := { k with st := .live req }) (by intro h; cases h)]; rfl
  · rw [db_cons_not (k := k) (by rw [hk]; intro h; cases h),
      db_cons_not (k := { k with st := .live req }) (by intro h; cases h)]; rfl

theorem Around.calm (h : Around G1 l r G2) {k : Ck}
    (hk : (∃ r, k.st = .live r) ∨ k.st = .delay ∨ k.st = .free) :
    Calm (chunks (G1 ++ (a, l ++ k :: r) :: G2)) := by
  rw [chunks_mid, Calm.append, Calm.append, Calm.append]
  refine ⟨h.g1, ⟨h.l, fun k' hk' => ?_⟩, h.g2⟩
  rcases List.mem_cons.1 hk' with rfl | hk'
  · exact hk
  · exact h.r k' hk'

theorem lives_put (G1 G2 : List (Arena × List Ck)) (a : Arena) (l r : List Ck) {k : Ck} {q : Nat}
    (hk : k.st = .live q) :
    (lives (chunks (G1 ++ (a, l ++ k :: r) :: G2))).Perm ((k.p, q) :: livesAround G1 l r G2) := by
  rw [lives_mid, show lives [k] = [(k.p, q)] by simp [lives, hk]]
  unfold livesAround
  rw [← List.append_assoc, ← List.append_assoc (lives (chunks G1))]
  exact List.perm_middle

/-- The padding in front of an aligned block becomes a chunk of its own. -/
theorem pad_pre (hc : CfgOk c) (hp : Pre c R s (G1 ++ (a, l ++ k :: r) :: G2)) (hk : k.st = .raw)
    {h : Hdr} (hh : s.hdr k.p = some h) {res d e f : Nat} (h1 : k.p + c.A + c.inter ≤ res)
    (h2 : res + c.A ≤ k.p + k.size) (h3 : c.A ∣ res) {s' : St}
    (hs : s'.hdr = (((s.put res { h with size := k.size - (res - k.p), reqDiff := d }).put k.p
      { h with size := res - k.p - c.inter, reqDiff := e, prevSz := f, freed := true }).hdr))
    (hf : f = h.prevSz)
    (harn : s'.arenas = s.arenas) (hmaps : s'.maps = s.maps) (hfree : s'.free = s.free)
    (hdelay : s'.delay = s.delay) (hdc : s'.dChunks = s.dChunks) (hdb : s'.dBytes = s.dBytes) :
    Pre c R s' (G1 ++ (a, l ++ ⟨k.p, res - k.p - c.inter, .held (lastFsz l)⟩ ::
        ⟨res, k.size - (res - k.p), .raw⟩ :: r) :: G2) := by
  obtain ⟨h', ha⟩ := hp.at
  have := ha.hdr
  rw [hh] at this
  cases this
  have hI := inter_pos c
  have hpos := A_pos c
  have hhi := ha.hi
  have hcm := ha.commit
  have hne : k.p ≠ res := by omega
  have hfre : h.freed = false := by rw [ha.ok.freed, hk]; rfl
  have hdel : h.delay = false := by rw [ha.ok.delay, hk]; rfl
  have hal : c.A ∣ k.p :=
    ((hp.rep (a, l ++ k :: r) (by simp)).align hc hp.geo_at.start).2 k (by simp)
  have hd1 : c.A ∣ res - k.p := Nat.dvd_sub h3 hal
  refine hp.edit ha.left ?_ (by rw [harn, hp.arenas]; simp) hp.geo_at rfl rfl
    (Nat.le_refl _) hmaps ?_ ?_ ?_ ?_ ?_ ?_
  · refine ⟨rfl, ?_, ?_,
      ⟨{ h with size := res - k.p - c.inter, reqDiff := e, prevSz := f, freed := true }, ?_, ?_⟩,
      (fun h => by cases h), ?_, ?_, ?_,
      ⟨{ h with size := k.size - (res - k.p), reqDiff := d }, ?_, ?_⟩,
      (fun h => by cases h), ?_⟩
    · simp only; omega
    · exact Nat.dvd_sub hd1 (A_inter hc)
    · rw [hs, put_hdr, if_pos rfl]
    · exact ⟨rfl, rfl, hdel, ha.ok.mmap, ha.ok.prevFree, fun h => by rw [hf]; exact ha.ok.prevSz h,
        fun r hr => by cases hr⟩
    · simp only; omega
    · simp only; omega
    · exact Nat.dvd_sub ha.dvd hd1
    · rw [hs, put_hdr, if_neg (by simp only; omega), put_hdr, if_pos (by simp only; omega)]
    · exact ⟨rfl, hfre, hdel, ha.ok.mmap, ha.ok.prevFree, ha.ok.prevSz, fun r hr => by cases hr⟩
    · have := ha.right
      rw [show k.fsz = 0 by unfold Ck.fsz; rw [hk]] at this
      have he : k.p + (res - k.p - c.inter) + c.inter + (k.size - (res - k.p)) + c.inter =
          k.p + k.size + c.inter := by omega
      simp only [he]
      refine this.frame fun y hy _ => ?_
      rw [hs, put_hdr, if_neg (by omega), put_hdr, if_neg (by omega)]
  · intro p hpn
    rw [hs, put_hdr, if_neg (by omega), put_hdr, if_neg (by omega)]
  · intro b X hX
    rw [fr_cons_not (by rw [hk]; intro h; cases h)] at hX
    rw [fr_cons_not (by intro h; cases h), fr_cons_not (by intro h; cases h), hfree]; exact hX
  · intro X hX
    rw [dl_cons_not (by rw [hk]; intro h; cases h)] at hX
    rw [dl_cons_not (by intro h; cases h), dl_cons_not (by intro h; cases h), hdelay]; exact hX
  · have h1 : dl (k :: r) = dl r := dl_cons_not (by rw [hk]; intro h; cases h) r
    have h2 : ∀ k1 k2 : Ck, k1.st ≠ .delay → k2.st ≠ .delay → dl (k1 :: k2 :: r) = dl r := by
      intro k1 k2 e1 e2
      rw [dl_cons_not e1, dl_cons_not e2]
    rw [h1, h2 _ _ (by simp) (by simp), hdc]
  · have h1 : db (k :: r) = db r := db_cons_not (by rw [hk]; intro h; cases h) r
    have h2 : ∀ k1 k2 : Ck, k1.st ≠ .delay → k2.st ≠ .delay → db (k1 :: k2 :: r) = db r := by
      intro k1 k2 e1 e2
      rw [db_cons_not e1, db_cons_not e2]
    rw [h1, h2 _ _ (by simp) (by simp), hdb]
  · intro p h' g1 g2 g3 g4
    by_cases hpk : p = k.p
    · exact ⟨_, List.mem_cons_self .., hpk.symm⟩
    · by_cases hp1 : p = res
      · exact ⟨⟨res, k.size - (res - k.p), .raw⟩, by simp, hp1.symm⟩
      · rw [hs, put_hdr, if_neg hpk, put_hdr, if_neg hp1] at g3
        obtain ⟨k', hk', hkp, hkf⟩ := hp.stale_in ha.left g1 g2 g3 g4
        rcases List.mem_cons.1 hk' with rfl | hk'
        · exact absurd hkp.symm hpk
        · exact ⟨k', by simp [hk'], hkp⟩

theorem alignUp_lt (x : Nat) {a : Nat} (ha : 0 < a) : alignUp x a < x + a := by
  unfold alignUp
  have h1 := Nat.div_add_mod (x + (a - 1)) a
  rw [Nat.mul_comm] at h1
  omega

theorem finish_spec (hc : CfgOk c) (hp : Pre c R s (G1 ++ (a, l ++ k :: r) :: G2)) (hk : k.st = .raw)
    (har : Around G1 l r G2) (hn : n ≤ G1.length) (os : Os) {req align : Nat} (hal : 0 < align)
    (hA : c.A ∣ align) (hreq : req ≤ k.size)
    (hbig : k.p % align ≠ 0 → alignUp req c.A + align + c.A + c.inter ≤ k.size) :
    ∃ s' G' res, finish c os n s k.p req align = some (s', res) ∧ Pre c R s' G' ∧ Calm (chunks G') ∧
      s'.mem = s.mem ∧ s'.maps = s.maps ∧ s'.delay = s.delay ∧ res % align = 0 ∧ res ≠ 0 ∧
      (lives (chunks G')).Perm ((res, req) :: livesAround G1 l r G2) := by
  obtain ⟨h, ha⟩ := hp.at
  have hbase := ha.base
  have hlo := ha.lo
  have hpos := A_pos c
  have hI := inter_pos c
  unfold finish
  simp only [ha.hdr]
  by_cases hm : k.p % align = 0
  · rw [if_pos hm]
    refine ⟨_, _, _, rfl, record_spec hp hk ha.hdr hreq, har.calm (Or.inl ⟨req, rfl⟩), rfl, rfl, rfl,
      hm, by omega, lives_put _ _ _ _ _ rfl⟩
  · rw [if_neg hm]
    have hb := hbig hm
    have r1 := le_alignUp (k.p + c.A + c.inter) hal
    have r2 := alignUp_lt (k.p + c.A + c.inter) hal
    have r3 : align ∣ alignUp (k.p + c.A + c.inter) align := alignUp_dvd _
    generalize alignUp (k.p + c.A + c.inter) align = res at r1 r2 r3 ⊢
    have r4 : c.A ∣ res := Nat.dvd_trans hA r3
    have a1 := le_alignUp req hpos
    have hszl := hp.size_lt
    have hd1 : c.A ∣ k.size - (res - k.p) := by
      refine Nat.dvd_sub ha.dvd (Nat.dvd_sub r4 ?_)
      exact ((hp.rep (a, l ++ k :: r) (by simp)).align hc hp.geo_at.start).2 k (by simp)
    have hd2 : c.A ≤ k.size - (res - k.p) := Nat.le_of_dvd (by omega) hd1
    have hne : res ≠ k.p := by omega
    have hu1 : u32 (k.size - (res - k.p)) = k.size - (res - k.p) := by
      unfold u32; rw [Nat.mod_eq_of_lt (by omega)]
    have hu2 : u32 (res - k.p - c.inter) = res - k.p - c.inter := by
      unfold u32; rw [Nat.mod_eq_of_lt (by omega)]
    have hsp : ∃ s1 : St, (∀ p, splitPiece c os n ((s.put k.p { h with reqDiff := u32 (h.size + 2 ^ 32 - req) }).put res
        { h with reqDiff := u32 (h.size + 2 ^ 32 - req) }) res k.p (res - k.p - c.inter)
        (k.size - (res - k.p)) = p ↔ coalesceAdd c os n s1 k.p = p) ∧ Pre c R s1
        (G1 ++ (a, l ++ ⟨k.p, res - k.p - c.inter, .held (lastFsz l)⟩ ::
          ⟨res, k.size - (res - k.p), .raw⟩ :: r) :: G2) ∧ s1.mem = s.mem ∧ s1.maps = s.maps ∧
          s1.delay = s.delay := by
      unfold splitPiece
      simp only [put_hdr, if_true, if_neg hne.symm, hu1, hu2]
      refine ⟨_, fun p => Iff.rfl, ?_, rfl, rfl, rfl⟩
      refine pad_pre hc hp hk ha.hdr (d := u32 (h.size + 2 ^ 32 - req)) (e := 0) (f := h.prevSz)
        r1 (by omega) r4 ?_ rfl rfl rfl rfl rfl rfl rfl
      funext y
      simp only [put_hdr]
      by_cases e1 : y = k.p
      · simp only [if_pos e1]
      · simp only [if_neg e1]
        by_cases e2 : y = res
        · simp only [if_pos e2]
        · simp only [if_neg e2]
    obtain ⟨s1, hsp1, P1, m1, mp1, d1⟩ := hsp
    rw [ha.ok.size] at hsp1 ⊢
    obtain ⟨s', G', e, S, P, nh, so⟩ := coalesceAdd_spec hc P1 hn rfl har.l.quiet.noHeld
      (by
        intro k' hk'
        rcases List.mem_cons.1 hk' with rfl | hk'
        · exact ⟨by simp, by simp⟩
        · exact har.r.quiet k' hk')
      har.g1.quiet.noHeld har.g2.quiet.noHeld os
    simp only at e
    rw [(hsp1 _).2 e]
    have hso : solids (chunks G') = (solids (chunks G1) ++ solids l) ++
        ⟨res, k.size - (res - k.p), .raw⟩ :: (solids r ++ solids (chunks G2)) := by
      rw [so, chunks_mid]
      simp only [solids_append]
      rw [solids_held (k := ⟨k.p, _, .held (lastFsz l)⟩) rfl]
      simp [solids]
    obtain ⟨G1', a', l', r', G2', rfl, har', hlv'⟩ := relocate nh (Or.inr rfl)
      (Calm.append.2 ⟨har.g1.solids, har.l.solids⟩) (Calm.append.2 ⟨har.r.solids, har.g2.solids⟩) hso
    obtain ⟨h2, ha2⟩ := P.at
    have hd3 : s'.hdr res = some h2 := ha2.hdr
    simp only [hd3]
    refine ⟨_, _, _, rfl, record_spec P rfl ha2.hdr (req := req) ?_, har'.calm (Or.inl ⟨req, rfl⟩), ?_,
      ?_, ?_, Nat.mod_eq_zero_of_dvd r3, by omega, ?_⟩
    · simp only; omega
    · rw [put_mem, S.mem, m1]
    · rw [put_maps, S.maps, mp1]
    · rw [put_delay, S.delay, d1]
    · refine (lives_put _ _ _ _ _ rfl).trans ?_
      rw [hlv']
      simp only [lives_append, lives_solids, livesAround, List.append_assoc]
      exact List.Perm.refl _

/-! ## Alignments -/

theorem isPow2_pow : ∀ {x : Nat}, 0 < x → isPow2 x = true → ∃ m, x = 2 ^ m := by
  intro x
  induction x using Nat.strongRecOn with
  | ind x ih =>
    intro hx h
    have h' : x &&& (x - 1) = 0 := of_decide_eq_true h
    have hdiv : x / 2 &&& (x - 1) / 2 = 0 := by rw [← Nat.and_div_two, h']
    rcases Nat.mod_two_eq_zero_or_one x with h2 | h2
    · have e : (x - 1) / 2 = x / 2 - 1 := by omega
      rw [e] at hdiv
      obtain ⟨m, hm⟩ := ih (x / 2) (by omega) (by omega) (decide_eq_true hdiv)
      exact ⟨m + 1, by rw [Nat.pow_succ, ← hm]; omega⟩
    · have e : (x - 1) / 2 = x / 2 := by omega
      rw [e, Nat.and_self] at hdiv
      exact ⟨0, by simp; omega⟩

theorem A_pow (c : Cfg) : ∃ m, c.A = 2 ^ m := by
  unfold Cfg.A
  split
  · exact ⟨4, rfl⟩
  · exact ⟨3, rfl⟩

theorem A_dvd_align {x : Nat} (h : isPow2 x = true) (hx : c.A ≤ x) : c.A ∣ x := by
  have hA := A_pos c
  obtain ⟨m, hm⟩ := isPow2_pow (by omega) h
  obtain ⟨j, hj⟩ := A_pow c
  rw [hm, hj] at hx ⊢
  exact Nat.pow_dvd_pow 2 ((Nat.pow_le_pow_iff_right (a := 2) (by decide)).1 hx)

/-- The alignment in effect (common/alloc_replace.c:1681-1690). -/
def effAlign (c : Cfg) (align0 : Nat) : Nat := if align0 < c.A then c.A else align0

/-- A request and its alignment that are representable do not overflow 32 bits together with
headers, redzones and rounding. -/
def Fits (c : Cfg) (req align0 : Nat) : Prop := req < 2 ^ 32 → (align0 = 0 ∨ isPow2 align0 = true) →
  alignUp req c.A + effAlign c align0 + c.A + c.inter + c.hs + c.mh + 2 * c.rz + c.hbr + page < 2 ^ 32

theorem alignedSize_eq {req align : Nat}
    (h : alignUp req c.A + align + c.A + c.inter < 2 ^ 32) :
    alignedSize c req align =
      max c.A (if align > c.A then alignUp req c.A + align + c.A + c.inter else alignUp req c.A) := by
  have h0 : u32 (alignUp req c.A) = alignUp req c.A := by
    unfold u32; rw [Nat.mod_eq_of_lt (by omega)]
  have h1 : u32 (alignUp req c.A + align + c.A + c.inter) = alignUp req c.A + align + c.A + c.inter := by
    unfold u32; rw [Nat.mod_eq_of_lt (by omega)]
  unfold alignedSize
  simp only [h0, h1]
  generalize (if align > c.A then alignUp req c.A + align + c.A + c.inter else alignUp req c.A) = z
  split <;> omega

/-- The properties of the rounded size that the rest relies on. -/
theorem alignedSize_spec (hc : CfgOk c) {req align : Nat} (hA : c.A ∣ align) (hle : c.A ≤ align)
    (h : alignUp req c.A + align + c.A + c.inter < 2 ^ 32) :
    c.A ≤ alignedSize c req align ∧ c.A ∣ alignedSize c req align ∧ req ≤ alignedSize c req align ∧
    (align ≠ c.A → alignUp req c.A + align + c.A + c.inter ≤ alignedSize c req align) ∧
    alignedSize c req align ≤ alignUp req c.A + align + c.A + c.inter := by
  have h1 := le_alignUp req (A_pos c)
  have h2 : c.A ∣ alignUp req c.A := alignUp_dvd _
  rw [alignedSize_eq h]
  refine ⟨Nat.le_max_left _ _, ?_, ?_, ?_, ?_⟩
  · have : c.A ∣ (if align > c.A then alignUp req c.A + align + c.A + c.inter else alignUp req c.A) := by
      split
      · exact Nat.dvd_add (Nat.dvd_add (Nat.dvd_add h2 hA) (Nat.dvd_refl _)) (A_inter hc)
      · exact h2
    rcases Nat.le_total c.A (if align > c.A then alignUp req c.A + align + c.A + c.inter else
        alignUp req c.A) with h3 | h3
    · rw [Nat.max_eq_right h3]; exact this
    · rw [Nat.max_eq_left h3]
  · split <;> omega
  · intro hne
    rw [if_pos (by omega)]
    exact Nat.le_max_right _ _
  · split <;> omega

/-! ## Large blocks -/

/-- The system's answer to a request for `size` bytes of their own: unused pages. -/
def MapAns (s : St) (os : Os) (size : Nat) : Prop :=
  ∀ b, os.map = some b → page ∣ b ∧ ∀ x ∈ regs s.arenas s.maps, Disj x (b, b + size)

theorem Pre.addMap (hp : Pre c R s G) {m : Map} {h : Hdr}
    (hnew : ∀ x ∈ Al.regs s.arenas s.maps, Disj x (m.base, m.base + m.size))
    (hm : MapOk c (fun p => if p = m.ptr then h.req else R p) (fun p => if p = m.ptr then some h else none) m) :
    Pre c (fun p => if p = m.ptr then h.req else R p)
      { (s.wipe m.base (m.base + m.size)).put m.ptr h with maps := m :: s.maps } G := by
  have hpos := hm.pos
  have hfit := hm.fits
  have hkeep : ∀ x ∈ Al.regs s.arenas s.maps, ∀ y, x.1 ≤ y → y < x.2 →
      y ≠ m.ptr ∧ ((s.wipe m.base (m.base + m.size)).put m.ptr h).hdr y = s.hdr y := by
    intro x hx y h1 h2
    have := hnew x hx
    simp only [Disj] at this
    refine ⟨by omega, ?_⟩
    rw [put_hdr, if_neg (by omega)]
    simp only [St.wipe]
    rw [if_neg (by omega)]
  constructor
  · exact hp.arenas
  · exact hp.ne
  · exact hp.geo
  · intro g hg
    refine (hp.rep g hg).frame fun y h1 h2 => ?_
    have h3 := (hp.geo g hg).base
    have h4 := (hp.geo g hg).commit
    refine (hkeep (g.1.base, g.1.commit) ?_ y (by simp only; omega) (by simp only; omega)).2
    rw [hp.arenas]
    exact List.mem_append_left _ (List.mem_map_of_mem (List.mem_map_of_mem hg))
  · have h := hp.regs
    simp only [put_arenas, St.wipe]
    unfold Al.regs at h hnew ⊢
    rw [List.pairwise_append] at h ⊢
    refine ⟨h.1, ?_, ?_⟩
    · rw [List.map_cons, List.pairwise_cons]
      refine ⟨fun x hx => ?_, h.2.1⟩
      exact Or.symm (hnew x (List.mem_append_right _ hx))
    · intro x hx y hy
      rw [List.map_cons] at hy
      rcases List.mem_cons.1 hy with rfl | hy
      · exact hnew x (List.mem_append_left _ hx)
      · exact h.2.2 x hx y hy
  · exact hp.free
  · exact hp.delay
  · exact hp.dChunks
  · exact hp.dBytes
  · intro m' hm'
    rcases List.mem_cons.1 hm' with rfl | hm'
    · refine { hm with hdr := ?_ }
      obtain ⟨x, h1, h2⟩ := hm.hdr
      refine ⟨x, ?_, h2⟩
      rw [if_pos rfl] at h1
      simp only [put_hdr, if_true]
      exact h1
    · have h1 := hp.maps m' hm'
      obtain ⟨e1, e2⟩ := hkeep (m'.base, m'.base + m'.size)
        (List.mem_append_right _ (List.mem_map.2 ⟨m', hm', rfl⟩)) _ (Nat.le_of_lt h1.pos) h1.fits
      exact { h1 with hdr := by simp only; rw [e2, if_neg e1]; exact h1.hdr }
  · intro p h' hh hf
    have hh' : (if p = m.ptr then some h else
      if m.base ≤ p ∧ p < m.base + m.size then none else s.hdr p) = some h' := hh
    split at hh'
    · next e => exact Or.inr ⟨m, List.mem_cons_self .., e.symm⟩
    · split at hh'
      · cases hh'
      · rcases hp.stale p h' hh' hf with hk | ⟨m', hm', e⟩
        · exact Or.inl hk
        · exact Or.inr ⟨m', List.mem_cons_of_mem _ hm', e⟩
  · intro k hk hd
    obtain ⟨g, hg, hkg⟩ := List.mem_flatMap.1 hk
    obtain ⟨-, h1, -, -, h2⟩ := hp.chunk_in hg hkg
    have h3 := (hkeep (g.1.base, g.1.commit) (by
      rw [hp.arenas]
      exact List.mem_append_left _ (List.mem_map_of_mem (List.mem_map_of_mem hg))) k.p
      (Nat.le_of_lt h1) h2).1
    simp only [if_neg h3]
    exact hp.dz k hk hd

theorem allocMap_spec (hc : CfgOk c) (hp : Pre c R s G) {os : Os} {req align : Nat}
    (hA : c.A ∣ align) (hle : c.A ≤ align)
    (hfit : alignUp req c.A + align + c.A + c.inter + c.hs + c.mh + 2 * c.rz + c.hbr + page < 2 ^ 32)
    (hos : MapAns s os (mapSize c (alignedSize c req align))) :
    allocMap c os s req align (alignedSize c req align) = (s, 0) ∨
    ∃ s' res R', allocMap c os s req align (alignedSize c req align) = (s', res) ∧ res ≠ 0 ∧
      res % align = 0 ∧ Pre c R' s' G ∧ s'.mem = s.mem ∧ quar R' s' = quar R s ∧
      ((∀ m ∈ s'.maps, m ∈ s.maps ∨ m.ptr = res) ∧ ∀ m ∈ s.maps, m ∈ s'.maps) ∧
      (blocks R' s' G).Perm ((res, req) :: blocks R s G) := by
  obtain ⟨a1, a2, a3, a4, a5⟩ := alignedSize_spec hc (req := req) hA hle (by omega)
  have hmh : 0 < c.mh := by unfold Cfg.mh; split <;> omega
  have hmA : c.A ∣ c.mh := by unfold Cfg.mh Cfg.A; cases c.x64 <;> decide
  have hpos := A_pos c
  have hbr := hs_le c
  unfold allocMap
  generalize alignedSize c req align = size at a1 a2 a3 a4 a5 hos ⊢
  have hin : c.sz (size + c.mh + c.rz * 2 + c.hbr) = size + c.mh + c.rz * 2 + c.hbr := by
    unfold Cfg.sz u32
    split
    · rfl
    · exact Nat.mod_eq_of_lt (by omega)
  have hup := le_alignUp (size + c.mh + c.rz * 2 + c.hbr) (a := page) (by decide)
  have hup' := alignUp_lt (size + c.mh + c.rz * 2 + c.hbr) (a := page) (by decide)
  have hms : mapSize c size = alignUp (size + c.mh + c.rz * 2 + c.hbr) page := by
    unfold mapSize
    rw [hin]
    unfold Cfg.sz u32
    split
    · rfl
    · exact Nat.mod_eq_of_lt (by omega)
  cases hm : os.map with
  | none => left; rfl
  | some base =>
    right
    obtain ⟨o1, o2⟩ := hos base hm
    rw [hms] at o2
    simp only [hms]
    generalize alignUp (size + c.mh + c.rz * 2 + c.hbr) page = msz at hup hup' o2 ⊢
    have hAp : c.A ∣ page := by unfold Cfg.A page; split <;> decide
    have hal0 : 0 < align := by omega
    have r1 := le_alignUp (base + c.mh + c.rz + c.hbr) hal0
    have r2 := alignUp_lt (base + c.mh + c.rz + c.hbr) hal0
    have r3 : align ∣ alignUp (base + c.mh + c.rz + c.hbr) align := alignUp_dvd _
    have r4 : align = c.A → alignUp (base + c.mh + c.rz + c.hbr) align = base + c.mh + c.rz + c.hbr := by
      intro e
      rw [e]
      refine Nat.le_antisymm (alignUp_le (Nat.le_refl _) ?_) (le_alignUp _ hpos)
      exact Nat.dvd_add (Nat.dvd_add (Nat.dvd_add (Nat.dvd_trans hAp o1) hmA) hc.rz) (A_hbr hc)
    generalize alignUp (base + c.mh + c.rz + c.hbr) align = res at r1 r2 r3 r4 ⊢
    rw [if_neg (by omega)]
    have hsz : size ≤ base + msz - c.rz - res ∨ (align ≠ c.A ∧ size - align < base + msz - c.rz - res) := by
      by_cases e : align = c.A
      · left; have := r4 e; omega
      · right; exact ⟨e, by omega⟩
    have hreq : req ≤ base + msz - c.rz - res := by
      have := le_alignUp req hpos
      rcases hsz with h | ⟨e, h⟩
      · omega
      · have := a4 e; omega
    have hlt : base + msz - c.rz - res < 2 ^ 32 := by omega
    have hu : u32 (base + msz - c.rz - res) = base + msz - c.rz - res := by
      unfold u32; rw [Nat.mod_eq_of_lt hlt]
    rw [hu]
    have hud := u32_diff hreq hlt
    have hreq' : Hdr.req { size := base + msz - c.rz - res, mmap := true, prevSz := res - c.rbh - c.hs - base, reqDiff := u32 (base + msz - c.rz - res + 2 ^ 32 - req) } = req := by
      unfold Hdr.req
      simp only [hud]
      omega
    have hbm : res < base + msz := by
      rcases hsz with h | ⟨e, h⟩ <;> omega
    have hok : ∀ R' : Nat → Nat, R' res = req → ∀ hd : Hdr,
        hd = { size := base + msz - c.rz - res, mmap := true, prevSz := res - c.rbh - c.hs - base, reqDiff := u32 (base + msz - c.rz - res + 2 ^ 32 - req) } →
        MapOk c R' (fun p => if p = res then some hd else none) { base := base, size := msz, ptr := res } := by
      intro R' hR hd hhd
      subst hhd
      refine ⟨⟨_, if_pos rfl, rfl, rfl, ?_, hreq'.trans hR.symm, ?_⟩, r1, ?_, by simp only; omega, hbm⟩
      · simp only [hud]; omega
      · simp only; omega
      · exact Nat.dvd_trans hA r3
    have hP := hp.addMap (m := { base := base, size := msz, ptr := res }) (h := { size := base + msz - c.rz - res, mmap := true, prevSz := res - c.rbh - c.hs - base, reqDiff := u32 (base + msz - c.rz - res + 2 ^ 32 - req) })
      o2 (hok _ (by simp only [if_true]; exact hreq') _ rfl)
    refine ⟨_, res, _, rfl, by omega, Nat.mod_eq_zero_of_dvd r3, hP, rfl, ?_, ⟨fun m hm => by
      rcases List.mem_cons.1 hm with rfl | hm
      · exact Or.inr rfl
      · exact Or.inl hm, fun m hm => List.mem_cons_of_mem _ hm⟩, ?_⟩
    · unfold quar
      apply List.map_congr_left
      intro p hpd
      obtain ⟨_, _, _, k, _, _, hG, rfl, hd⟩ := hp.delay_split hpd
      have hk : k ∈ chunks G := by rw [hG, chunks_mid]; simp
      obtain ⟨g, hg, hkg⟩ := List.mem_flatMap.1 hk
      obtain ⟨-, h1, -, -, h2⟩ := hp.chunk_in hg hkg
      have h3 := o2 (g.1.base, g.1.commit) (by
        rw [hp.arenas]
        exact List.mem_append_left _ (List.mem_map_of_mem (List.mem_map_of_mem hg)))
      simp only [Disj] at h3
      have h4 : k.p ≠ res := by omega
      simp only [if_neg h4]
    unfold blocks
    simp only [List.map_cons, if_true, hreq']
    refine List.perm_middle.trans (List.Perm.cons _ ?_)
    refine List.Perm.append_left _ (List.Perm.of_eq ?_)
    apply List.map_congr_left
    intro m' hm'
    have h1 := hp.maps m' hm'
    have h2 := o2 (m'.base, m'.base + m'.size) (List.mem_append_right _ (List.mem_map.2 ⟨m', hm', rfl⟩))
    have h3 := h1.pos
    have h4 := h1.fits
    simp only [Disj] at h2
    rw [if_neg (by omega)]

/-! ## `malloc`, `calloc`, `memalign` -/

/-- The system's answers to one allocation. -/
structure OsFor (c : Cfg) (s : St) (os : Os) (req align0 : Nat) : Prop where
  arena : OsOk c s os (alignedSize c req (effAlign c align0) + c.inter)
  map : MapAns s os (mapSize c (alignedSize c req (effAlign c align0)))

theorem Pre.zero (hp : Pre c R s G) (p q : Nat) : Pre c R (s.zero p q) G :=
  ⟨hp.arenas, hp.ne, hp.geo, hp.rep, hp.regs, hp.free, hp.delay, hp.dChunks, hp.dBytes, hp.maps, hp.stale, hp.dz⟩

/-- One allocation: failure leaves all blocks alone, success adds one aligned block.  Only without
memory from the system does the quarantine lose blocks, the oldest first. -/
theorem alloc_spec (hc : CfgOk c) (hp : Pre c R s G) (hcalm : Calm (chunks G)) {os : Os}
    {req align0 : Nat} (zero : Bool) (hfit : Fits c req align0) (hos : OsFor c s os req align0) :
    ∃ s' res R' G', alloc c os s req align0 zero = some (s', res) ∧ Pre c R' s' G' ∧
      Calm (chunks G') ∧
      (∃ d, quar R s = d ++ quar R' s' ∧ (os.ext ≠ none ∨ os.arena ≠ none → d = [])) ∧
      ((∀ m ∈ s'.maps, m ∈ s.maps ∨ m.ptr = res) ∧ ∀ m ∈ s.maps, m ∈ s'.maps) ∧
      ((res = 0 ∧ s'.mem = s.mem ∧ blocks R' s' G' = blocks R s G) ∨
       (res ≠ 0 ∧ req < 2 ^ 32 ∧ res % effAlign c align0 = 0 ∧
        (blocks R' s' G').Perm ((res, req) :: blocks R s G) ∧
        s'.mem = if zero then (s.zero res req).mem else s.mem)) := by
  unfold alloc
  by_cases h1 : req ≥ 2 ^ 32 ∨ (c.x64 = false ∧ alignUp req page ≥ 2 ^ 32)
  · rw [if_pos h1]
    exact ⟨s, 0, R, G, rfl, hp, hcalm, ⟨[], rfl, fun _ => rfl⟩, ⟨fun m hm => Or.inl hm, fun m hm => hm⟩, Or.inl ⟨rfl, rfl, rfl⟩⟩
  rw [if_neg h1]
  by_cases h2 : align0 ≠ 0 ∧ (!isPow2 align0) = true
  · rw [if_pos h2]
    exact ⟨s, 0, R, G, rfl, hp, hcalm, ⟨[], rfl, fun _ => rfl⟩, ⟨fun m hm => Or.inl hm, fun m hm => hm⟩, Or.inl ⟨rfl, rfl, rfl⟩⟩
  rw [if_neg h2]
  have hreq : req < 2 ^ 32 := by omega
  have hpow : align0 = 0 ∨ isPow2 align0 = true := by
    by_cases e : align0 = 0
    · exact Or.inl e
    · right
      cases hb : isPow2 align0 with
      | true => rfl
      | false => exact absurd ⟨e, by rw [hb]; rfl⟩ h2
  have hf := hfit hreq hpow
  have hle : c.A ≤ effAlign c align0 := by unfold effAlign; split <;> omega
  have hA : c.A ∣ effAlign c align0 := by
    have hpos := A_pos c
    unfold effAlign
    split
    · exact Nat.dvd_refl _
    · rcases hpow with e | e
      · omega
      · exact A_dvd_align e (by omega)
  have heff : (if align0 < c.A then c.A else align0) = effAlign c align0 := rfl
  simp only [heff]
  obtain ⟨ho1, ho2⟩ := hos
  generalize effAlign c align0 = align at hf hle hA ho1 ho2 ⊢
  obtain ⟨a1, a2, a3, a4, a5⟩ := alignedSize_spec hc (req := req) hA hle (by omega)
  have hal : 0 < align := by have := A_pos c; omega
  have hus : u32 (alignedSize c req align + c.hs) = alignedSize c req align + c.hs := by
    unfold u32; rw [Nat.mod_eq_of_lt (by omega)]
  rw [hus]
  have hzero : ∀ (s1 : St) (res : Nat), s1.mem = s.mem →
      (if zero = true then s1.zero res req else s1).mem =
        if zero = true then (s.zero res req).mem else s.mem := by
    intro s1 res h
    cases zero
    · simpa using h
    · simp [St.zero, h]
  have hzp : ∀ (R1 : Nat → Nat) (s1 : St) (G1 : List (Arena × List Ck)) (res : Nat), Pre c R1 s1 G1 →
      Pre c R1 (if zero = true then s1.zero res req else s1) G1 := by
    intro R1 s1 G1 res h
    split
    · exact h.zero _ _
    · exact h
  have hzb : ∀ (R1 : Nat → Nat) (s1 : St) (G1 : List (Arena × List Ck)) (res : Nat),
      blocks R1 (if zero = true then s1.zero res req else s1) G1 = blocks R1 s1 G1 := by
    intro R1 s1 G1 res
    split <;> rfl
  have hzq : ∀ (R1 : Nat → Nat) (s1 : St) (res : Nat),
      quar R1 (if zero = true then s1.zero res req else s1) = quar R1 s1 := by
    intro R1 s1 res
    split <;> rfl
  have hzm : ∀ (s1 : St) (res : Nat),
      (if zero = true then s1.zero res req else s1).maps = s1.maps := by
    intro s1 res
    split <;> rfl
  have hquar : ∀ (s1 : St), (∃ d, s.delay = d ++ s1.delay ∧ (os.ext ≠ none ∨ os.arena ≠ none → d = [])) →
      ∃ d, quar R s = d ++ quar R s1 ∧ (os.ext ≠ none ∨ os.arena ≠ none → d = []) := by
    rintro s1 ⟨d, h1, h2⟩
    refine ⟨d.map fun p => (p, R p), ?_, fun h => by rw [h2 h]; rfl⟩
    unfold quar
    rw [h1, List.map_append]
  by_cases h3 : alignedSize c req align + c.hs ≥ minMmap
  · rw [if_pos h3]
    rcases allocMap_spec hc hp hA hle (by omega) ho2 with e | ⟨s', res, R', e, e1, e2, P, m, d, mp, b⟩
    · simp only [e]
      rw [if_pos trivial]
      exact ⟨s, 0, R, G, rfl, hp, hcalm, ⟨[], rfl, fun _ => rfl⟩, ⟨fun m hm => Or.inl hm, fun m hm => hm⟩, Or.inl ⟨rfl, rfl, rfl⟩⟩
    · simp only [e]
      rw [if_neg e1]
      exact ⟨_, res, R', G, rfl, hzp _ _ _ _ P, hcalm, ⟨[], by rw [hzq, d]; rfl, fun _ => rfl⟩, by
        rw [hzm]; exact mp, Or.inr ⟨e1, hreq, e2, by
        rw [hzb]; exact b, hzero _ _ m⟩⟩
  · rw [if_neg h3]
    have hpage : page + page + minMmap ≤ arenaSize := by decide
    have hsub := hc.subFits
    have hroom : c.subHdr + c.inter + alignedSize c req align + c.inter ≤ arenaSize := by omega
    -- what remains once a chunk is found
    have key : ∀ s1 G1 a l k r G2 i, Got c R s G (alignedSize c req align) s1 G1 a l k r G2 →
        i ≤ G1.length → (∃ d, s.delay = d ++ s1.delay ∧ (os.ext ≠ none ∨ os.arena ≠ none → d = [])) →
        ∃ s' res R' G', (match finish c os i s1 k.p req align with
          | none => none
          | some (s, r) => some (if zero = true then s.zero r req else s, r)) = some (s', res) ∧
          Pre c R' s' G' ∧ Calm (chunks G') ∧
          (∃ d, quar R s = d ++ quar R' s' ∧ (os.ext ≠ none ∨ os.arena ≠ none → d = [])) ∧
          ((∀ m ∈ s'.maps, m ∈ s.maps ∨ m.ptr = res) ∧ ∀ m ∈ s.maps, m ∈ s'.maps) ∧
          ((res = 0 ∧ s'.mem = s.mem ∧ blocks R' s' G' = blocks R s G) ∨
           (res ≠ 0 ∧ req < 2 ^ 32 ∧ res % align = 0 ∧
            (blocks R' s' G').Perm ((res, req) :: blocks R s G) ∧
            s'.mem = if zero then (s.zero res req).mem else s.mem)) := by
      intro s1 G1 a l k r G2 i g hi hd
      obtain ⟨s2, G', res, e, P, C, m, mp, d, e1, e2, lv⟩ := finish_spec hc g.pre g.raw g.around hi os hal hA
        (Nat.le_trans a3 g.size) (fun hne => by
          refine Nat.le_trans (a4 ?_) g.size
          rintro rfl
          exact hne (Nat.mod_eq_zero_of_dvd
            (((g.pre.rep (a, l ++ k :: r) (by simp)).align hc g.pre.geo_at.start).2 k (by simp))))
      rw [e]
      refine ⟨_, res, R, G', rfl, hzp _ _ _ _ P, C, ?_, by
        rw [hzm, mp, g.maps]; exact ⟨fun m hm => Or.inl hm, fun m hm => hm⟩, Or.inr ⟨e2, hreq, e1, ?_, hzero _ _ (m.trans g.mem)⟩⟩
      · rw [hzq]
        have := hquar s2 (by rw [d]; exact hd)
        exact this
      · rw [hzb]
        unfold blocks
        rw [mp, g.maps, ← g.lives]
        exact List.Perm.append_right _ lv
    rcases findFree_spec hc hp hcalm a1 a2 os with ⟨e, -⟩ | ⟨s1, G1, a, l, k, r, G2, e, -, g, d⟩
    · simp only [e]
      rcases newChunk_spec hc hp hcalm a1 a2 ho1 (by omega) hroom with
        ⟨s1, G1, e1, P, C, m, mp, lv, x1, x2, d, hd⟩ | ⟨s1, G1, a, l, k, r, G2, i, e1, hi, g, d⟩
      · simp only [e1]
        exact ⟨s1, 0, R, G1, rfl, P, C, hquar s1 ⟨d, hd, fun h => by
          rcases h with h | h
          · exact absurd x1 h
          · exact absurd x2 h⟩, by rw [mp]; exact ⟨fun m hm => Or.inl hm, fun m hm => hm⟩, Or.inl ⟨rfl, m, by unfold blocks; rw [lv, mp]⟩⟩
      · simp only [e1]
        exact key s1 G1 a l k r G2 i g hi d
    · simp only [e]
      exact key s1 G1 a l k r G2 0 g (Nat.zero_le _) ⟨[], by rw [d]; rfl, fun _ => rfl⟩

end Verif.Al
