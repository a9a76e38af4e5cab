import Verif.WrapThms
/-
C74: the heap in wrapping mode.  The properties.
-/
namespace Verif.Wrap

/-- Where a block of the application begins, with its redzone. -/
def lo (rz p : Nat) (b : Blk) : Nat := if b.pre then p else p - rz

/-- Where it ends, with its redzone. -/
def hi (rz p : Nat) (b : Blk) : Nat := if b.pre then p + b.size else p + b.size + rz

/-- What the application owns lies in a block that the allocator has given out and not got back, and has
a whole redzone before it and one after it in that block, unless it is from before the tool.  The table
knows the block, with its end. -/
theorem C74_room {rz es s rs} (h : Run rz es s rs) (h8 : 8 ≤ rz) (hr : rz ≤ 0x10000000) {p b}
    (hb : s.own p = some b) :
    ∃ u e, s.heap b.real = some u ∧ b.real ≤ lo rz p b ∧ hi rz p b ≤ b.real + u ∧
      (b.pre = false → lo rz p b + rz = p) ∧ s.tab p = some e ∧ e.valid = true ∧ e.stop = p + b.size := by
  obtain ⟨role, i⟩ := inv_run h h8 hr
  obtain ⟨u, e, h1, h2, _, h4⟩ := i.block hb
  obtain ⟨e', g1, g2⟩ := i.facts hb
  rw [h2] at g1
  cases g1
  refine ⟨u, e, h1, ?_, ?_, ?_, h2, g2.valid, g2.stop⟩
  · unfold lo
    rcases h4 with ⟨k1, k2, _⟩ | ⟨k1, k2, _⟩ <;> rw [k1] <;> simp <;> omega
  · unfold hi
    rcases h4 with ⟨k1, k2, k3, _⟩ | ⟨k1, k2, k3, _⟩ <;> rw [k1] <;> simp <;> omega
  · unfold lo
    rcases h4 with ⟨k1, k2, _⟩ | ⟨k1, k2, _⟩ <;> rw [k1] <;> simp <;> omega

/-- Two things that the application owns have nothing in common, nor have their redzones. -/
theorem C74_apart {rz es s rs} (h : Run rz es s rs) (h8 : 8 ≤ rz) (hr : rz ≤ 0x10000000) {p q b c}
    (hb : s.own p = some b) (hc : s.own q = some c) (hne : p ≠ q) :
    hi rz p b ≤ lo rz q c ∨ hi rz q c ≤ lo rz p b := by
  obtain ⟨u, _, h1, h2, h3, _⟩ := C74_room h h8 hr hb
  obtain ⟨v, _, g1, g2, g3, _⟩ := C74_room h h8 hr hc
  obtain ⟨role, i⟩ := inv_run h h8 hr
  have hr' : b.real ≠ c.real := by
    intro he
    have x := i.app p b hb
    have y := i.app q c hc
    rw [he, y] at x
    injection x with x
    exact hne x.symm
  have := i.apart _ _ _ _ h1 g1 hr'
  omega

/-- A call returns NULL if the allocator did, and else something new, of the size that was asked for,
without touching the rest. -/
theorem C74_alloc {rz es s rs} (h : Run rz es s rs) (h8 : 8 ≤ rz) (hr : rz ≤ 0x10000000) {t n k r}
    (hp : s.pend t = .got n k r) :
    (r = 0 ∧ ret rz s t = 0 ∧ (step rz s (.post t)).1.own = s.own ∧ (step rz s (.post t)).2 = [.failure n]) ∨
    (r ≠ 0 ∧ ret rz s t ≠ 0 ∧ s.own (ret rz s t) = none ∧ (step rz s (.post t)).2 = [] ∧
      ∀ x, (step rz s (.post t)).1.own x = if x = ret rz s t then some ⟨n, k, r, false⟩ else s.own x) := by
  obtain ⟨role, i⟩ := inv_run h h8 hr
  have hret : ret rz s t = (allocPost rz n k r s.tab).2.1 := by unfold ret; rw [hp]
  have hst : step rz s (.post t) =
      ({ s with
         tab := (allocPost rz n k r s.tab).1
         own := if (allocPost rz n k r s.tab).2.1 = 0 then s.own
           else upd s.own (allocPost rz n k r s.tab).2.1 (some ⟨n, k, r, false⟩)
         pend := upd s.pend t .idle }, (allocPost rz n k r s.tab).2.2) := by
    unfold step
    dsimp only
    rw [hp]
  rw [hret, hst]
  by_cases h0 : r = 0
  · left
    have ha : allocPost rz n k r s.tab = (s.tab, 0, [.failure n]) := by unfold allocPost; rw [if_pos h0]
    rw [ha]
    exact ⟨h0, rfl, rfl, rfl⟩
  · right
    have ha : allocPost rz n k r s.tab = (upd s.tab (r + rz) (some (newEntry rz n k r)), r + rz, []) := by
      unfold allocPost; rw [if_neg h0]
    rw [ha]
    dsimp only
    refine ⟨h0, by omega, i.got_own (by omega) hp h0, rfl, ?_⟩
    intro x
    rw [if_neg (by omega)]
    rfl

/-- A call of malloc or calloc asks for what it was asked for: with the product, if it is one. -/
theorem C74_asks (rz : Nat) (s : St) (t n m : Nat) (k : Kind) :
    (∃ b, (step rz s (.malloc t n k)).1.pend t = .alloc n k b) ∧
    (n * m < W → ∃ b, (step rz s (.calloc t n m k)).1.pend t = .alloc (n * m) k b) := by
  constructor
  · exact ⟨_, upd_self _ _ _⟩
  · intro h
    refine ⟨(callocArgs rz n m).1 * (callocArgs rz n m).2, ?_⟩
    show upd s.pend t _ t = _
    rw [upd_self, Nat.mod_eq_of_lt h]

theorem calloc_big (rz n m : Nat) (hn : n < W) (hm : m < W) (h : W ≤ n * m) :
    W ≤ (callocArgs rz n m).1 * (callocArgs rz n m).2 := by
  unfold callocArgs
  split
  · exact h
  · split
    · rename_i h0
      have : n * m = 0 := by rcases h0 with h | h <;> rw [h] <;> simp
      rw [this] at h
      exact absurd h (by decide)
    · split
      · dsimp only
        split
        · exact h
        · rename_i hw
          exact Nat.le_trans h (Nat.mul_le_mul_left n (by omega))
      · dsimp only
        split
        · exact h
        · rename_i hw
          exact Nat.le_trans h (Nat.mul_le_mul_right m (by omega))

/-- A calloc whose product does not fit gets nothing. -/
theorem C74_calloc_overflow {rz : Nat} {s : St} {t n m : Nat} {k : Kind} (he : enabled rz s (.calloc t n m k))
    (hov : W ≤ n * m) {r u : Nat} (hu : enabled rz (step rz s (.calloc t n m k)).1 (.under t r u)) : r = 0 := by
  obtain ⟨_, hn, hm, _⟩ := he
  obtain ⟨n', k', b, hp, h⟩ := hu
  change upd s.pend t _ t = _ at hp
  rw [upd_self] at hp
  cases hp
  rcases h with h | ⟨h1, h2⟩
  · exact h
  · exfalso
    have := calloc_big rz n m hn hm hov
    have := h1.2.2.1
    unfold W top at *
    omega

/-- The allocator is only told to free what it has given out, that no one else is about to free, that
the application does not own, that is in no call's hands, and that the client does not keep. -/
theorem C74_free_arg {rz es s rs} (h : Run rz es s rs) (h8 : 8 ≤ rz) (hr : rz ≤ 0x10000000) :
    s.bad = false ∧
    ∀ t a, s.pend t = .freeing a → a ≠ 0 → s.heap a ≠ none ∧ (∀ p b, s.own p = some b → b.real ≠ a) ∧ a ∉ s.held ∧
      (∀ t' n k, s.pend t' ≠ .got n k a) ∧ (∀ t', t' ≠ t → s.pend t' ≠ .freeing a) := by
  obtain ⟨role, i⟩ := inv_run h h8 hr
  refine ⟨i.ok, ?_⟩
  intro t a hp ha
  have hg := (i.going a t).mpr ⟨ha, hp⟩
  refine ⟨?_, ?_, ?_, ?_, ?_⟩
  · intro hn; rw [(i.live a).mpr hn] at hg; cases hg
  · intro p b hb he; have := i.app p b hb; rw [he, hg] at this; cases this
  · intro hh; rw [(i.held a).mp hh] at hg; cases hg
  · intro t' n k hh; rw [(i.out a t').mpr ⟨ha, n, k, hh⟩] at hg; cases hg
  · intro t' ht hh
    rw [(i.going a t').mpr ⟨ha, hh⟩] at hg
    injection hg with hg
    exact ht hg

/-- A free of what the application owns takes that from it, and nothing else; no other event takes
anything from it. -/
theorem C74_keeps {rz es s rs} (h : Run rz es s rs) (h8 : 8 ≤ rz) (hr : rz ≤ 0x10000000) {e : Ev}
    (he : enabled rz s e) (hg : Good s e) {p b} (hb : s.own p = some b) :
    (step rz s e).1.own p = some b ∨ ((∃ t how inner ch, e = .free t p how inner ch) ∧ (step rz s e).1.own p = none) := by
  obtain ⟨role, i⟩ := inv_run h h8 hr
  cases e with
  | attach q size u =>
    left
    obtain ⟨_, hf⟩ := he
    show upd s.own q _ p = some b
    rw [upd_other]
    · exact hb
    · intro hh
      have := i.fresh_own hf (x := p) (by omega) (by have := hf.2.1; omega)
      rw [hb] at this; cases this
  | malloc t n k => exact Or.inl hb
  | calloc t n m k => exact Or.inl hb
  | under t r u =>
    left
    obtain ⟨n, k, c, hp, _⟩ := he
    unfold step
    dsimp only
    rw [hp]
    exact hb
  | post t =>
    left
    obtain ⟨n, k, r, hp⟩ := he
    rcases C74_alloc h h8 hr hp with ⟨_, _, h1, _⟩ | ⟨_, _, h1, _, h2⟩
    · rw [h1]; exact hb
    · rw [h2, if_neg]
      · exact hb
      · intro hh; rw [← hh, hb] at h1; cases h1
  | free t q how inner ch =>
    by_cases hq : q = p
    · subst hq
      right
      refine ⟨⟨t, how, inner, ch, rfl⟩, ?_⟩
      obtain ⟨f1, _⟩ := i.free_own h8 hb how inner he.2.2.1
      unfold step
      dsimp only
      rw [f1]
      exact upd_self _ _ _
    · left
      unfold step
      dsimp only
      split
      · exact hb
      · dsimp only
        rw [upd_other _ _ _ _ (Ne.symm hq)]
        exact hb
  | underFree t =>
    left
    obtain ⟨a, hp⟩ := he
    unfold step
    dsimp only
    rw [hp]
    show (heapFree a s).own p = some b
    unfold heapFree
    split
    · exact hb
    · split <;> exact hb

/-- After a run without an invalid free, whatever comes next, the reports are those of the rule. -/
theorem C74_reports {rz es s rs} (h : Run rz es s rs) (h8 : 8 ≤ rz) (hr : rz ≤ 0x10000000) {e : Ev}
    (he : enabled rz s e) (r : Report) : r ∈ (step rz s e).2 ↔ Rule s e r := by
  obtain ⟨role, i⟩ := inv_run h h8 hr
  cases e with
  | attach p size u =>
    constructor
    · intro h; cases h
    · intro h; cases h
  | malloc t n k =>
    constructor
    · intro h; cases h
    · intro h; cases h
  | calloc t n m k =>
    constructor
    · intro h; cases h
    · intro h; cases h
  | under t r' u =>
    obtain ⟨n, k, c, hp, _⟩ := he
    have : (step rz s (.under t r' u)).2 = [] := by unfold step; dsimp only; rw [hp]
    rw [this]
    constructor
    · intro h; cases h
    · intro h; cases h
  | underFree t =>
    obtain ⟨a, hp⟩ := he
    have : (step rz s (.underFree t)).2 = [] := by unfold step; dsimp only; rw [hp]
    rw [this]
    constructor
    · intro h; cases h
    · intro h; cases h
  | post t =>
    obtain ⟨n, k, r', hp⟩ := he
    rcases C74_alloc h h8 hr hp with ⟨h0, _, _, h1⟩ | ⟨h0, _, _, h1, _⟩
    · rw [h1, List.mem_singleton]
      constructor
      · intro hh; rw [hh]; exact ⟨k, by rw [hp, h0]⟩
      · intro hh
        cases r with
        | failure n' =>
          obtain ⟨k', hk⟩ := hh
          rw [hp] at hk; cases hk; rfl
        | invalid _ => cases hh
        | nullFree => cases hh
        | mismatch _ _ _ => cases hh
    · rw [h1]
      constructor
      · intro hh; cases hh
      · intro hh
        cases r with
        | failure n' =>
          obtain ⟨k', hk⟩ := hh
          rw [hp] at hk; cases hk; exact absurd rfl h0
        | invalid _ => cases hh
        | nullFree => cases hh
        | mismatch _ _ _ => cases hh
  | free t p how inner ch =>
    have hreps : (step rz s (.free t p how inner ch)).2 = (freePre rz p how inner s.tab).reps := by
      unfold step
      dsimp only
      split <;> rfl
    rw [hreps]
    have hi := he.2.2.1
    cases hb : s.own p with
    | some b =>
      obtain ⟨_, f2, _⟩ := i.free_own h8 hb how inner hi
      have hp0 := i.nonzero hb
      rw [f2]
      have key : r ∈ (if inner = true then [] else compareKinds b.kind p how) ↔
          inner = false ∧ r = .mismatch p b.kind how ∧ b.kind ≠ .unknown ∧ b.kind ≠ how := by
        cases inner
        · rw [if_neg (by simp)]
          unfold compareKinds
          split
          · rename_i hk
            rw [List.mem_singleton]
            exact ⟨fun g => ⟨rfl, g, hk.1, hk.2⟩, fun g => g.2.1⟩
          · rename_i hk
            constructor
            · intro g; cases g
            · intro g; exact absurd ⟨g.2.2.1, g.2.2.2⟩ hk
        · rw [if_pos rfl]
          constructor
          · intro g; cases g
          · intro g; cases g.1
      rw [key]
      cases r with
      | failure n' =>
        constructor
        · rintro ⟨_, h, _⟩; cases h
        · intro hh; cases hh
      | nullFree =>
        constructor
        · rintro ⟨_, h, _⟩; cases h
        · intro hh; exact absurd hh hp0
      | invalid q =>
        constructor
        · rintro ⟨_, h, _⟩; cases h
        · rintro ⟨_, _, hh⟩; rw [hb] at hh; cases hh
      | mismatch q k f =>
        constructor
        · rintro ⟨h1, h2, h3, h4⟩
          injection h2 with h5 h6 h7
          subst h5 h6 h7
          exact ⟨h1, rfl, h4, h3, ⟨b, hb, rfl⟩, Or.inl rfl⟩
        · rintro ⟨h1, h2, h3, h4, ⟨c, h5, h6⟩, h7⟩
          rcases h7 with h7 | ⟨h7, _⟩
          · subst h7
            rw [hb] at h5
            cases h5
            subst h6 h2
            exact ⟨h1, rfl, h4, h3⟩
          · rw [hb] at h7; cases h7
    | none =>
      obtain ⟨_, f2, _⟩ := i.free_none h8 hb how inner hi
      rw [f2]
      cases r with
      | failure n' =>
        constructor
        · rintro (h | ⟨_, q, k, h, _⟩)
          · split at h <;> cases h
          · cases h
        · intro hh; cases hh
      | nullFree =>
        constructor
        · rintro (h | ⟨_, q, k, h, _⟩)
          · split at h
            · assumption
            · cases h
          · cases h
        · intro hh
          change p = 0 at hh
          exact Or.inl (by rw [if_pos hh])
      | invalid q =>
        constructor
        · rintro (h | ⟨_, q, k, h, _⟩)
          · split at h
            · cases h
            · rename_i hp0
              cases h
              exact ⟨rfl, hp0, hb⟩
          · cases h
        · rintro ⟨h1, h2, _⟩
          rw [h1]
          exact Or.inl (by rw [if_neg h2])
      | mismatch q k f =>
        constructor
        · rintro (h | ⟨h0, q', k', h, h1, h2, h3, h4⟩)
          · split at h <;> cases h
          · injection h with h5 h6 h7
            subst h5 h6 h7
            exact ⟨h0, rfl, h2, h1, (kindAt_some h1).mp h3, Or.inr ⟨hb, h4⟩⟩
        · rintro ⟨h0, h1, h2, h3, h4, h5⟩
          subst h1
          refine Or.inr ⟨h0, q, k, rfl, h3, h2, (kindAt_some h3).mpr h4, ?_⟩
          rcases h5 with h5 | h5
          · obtain ⟨c, h6, _⟩ := h4
            rw [h5, hb] at h6; cases h6
          · exact h5.2

/-- The reports of a run are those of its events. -/
theorem C74_run {rz es s rs} (h : Run rz es s rs) (h8 : 8 ≤ rz) (hr : rz ≤ 0x10000000) (r : Report) :
    r ∈ rs ↔ ∃ es' e es'' s' rs', es = es' ++ e :: es'' ∧ Run rz es' s' rs' ∧ Rule s' e r ∧
      enabled rz s' e ∧ Run rz (es' ++ [e]) (step rz s' e).1 (rs' ++ (step rz s' e).2) ∧
      rs' ++ (step rz s' e).2 <+: rs := by
  induction h with
  | nil =>
    constructor
    · intro h; cases h
    · rintro ⟨es', e, es'', _, _, h, _⟩
      exact absurd h (by simp)
  | @snoc es s rs e hrun he hg ih =>
    rw [List.mem_append]
    constructor
    · rintro (h | h)
      · obtain ⟨es', e', es'', s', rs', h1, h2, h3, h4, h5, h6⟩ := ih.mp h
        exact ⟨es', e', es'' ++ [e], s', rs', by rw [h1]; simp, h2, h3, h4, h5,
          h6.trans (List.prefix_append _ _)⟩
      · exact ⟨es, e, [], s, rs, rfl, hrun, (C74_reports hrun h8 hr he r).mp h, he, Run.snoc e hrun he hg,
          List.prefix_refl _⟩
    · rintro ⟨es', e', es'', s', rs', h1, h2, h3, h4, h5, h6⟩
      have hm : r ∈ rs' ++ (step rz s' e').2 :=
        List.mem_append_right _ ((C74_reports h2 h8 hr h4 r).mpr h3)
      exact List.mem_append.mp (h6.subset hm)

/-- What a correct program does: it frees what it owns, by the routine that goes with it. -/
def Proper (s : St) : Ev → Prop
  | .free _ p how inner _ => ∃ b, s.own p = some b ∧ (b.kind = how ∨ b.kind = .unknown ∨ inner = true)
  | _ => True

/-- A correct program is only told of allocations that fail. -/
theorem C74_quiet {rz es s rs} (h : Run rz es s rs) (h8 : 8 ≤ rz) (hr : rz ≤ 0x10000000) {e : Ev}
    (he : enabled rz s e) (hp : Proper s e) {r : Report} (hm : r ∈ (step rz s e).2) : ∃ n, r = .failure n := by
  have hru := (C74_reports h h8 hr he r).mp hm
  obtain ⟨role, i⟩ := inv_run h h8 hr
  cases e with
  | attach p size u => cases hru
  | malloc t n k => cases hru
  | calloc t n m k => cases hru
  | under t r' u => cases hru
  | underFree t => cases hru
  | post t =>
    cases r with
    | failure n => exact ⟨n, rfl⟩
    | invalid _ => cases hru
    | nullFree => cases hru
    | mismatch _ _ _ => cases hru
  | free t p how inner ch =>
    obtain ⟨b, hb, hk⟩ := hp
    cases r with
    | failure n => exact ⟨n, rfl⟩
    | invalid q =>
      obtain ⟨_, _, h⟩ := hru
      rw [hb] at h; cases h
    | nullFree => exact absurd hru (i.nonzero hb)
    | mismatch q k f =>
      exfalso
      obtain ⟨h1, h2, h3, h4, ⟨c, h5, h6⟩, h7⟩ := hru
      rcases h7 with h7 | ⟨h7, _⟩
      · subst h7
        rw [hb] at h5
        cases h5
        rcases hk with hk | hk | hk
        · exact h3 (h6.symm.trans hk)
        · exact h4 (h6.symm.trans hk)
        · rw [h1] at hk; cases hk
      · rw [hb] at h7; cases h7

/-- A query of the size of what the application owns reaches the allocator as one of its block, is not
reported, and gives what the allocator says without the redzones: at least what was asked for, and never
more than up to the last redzone's worth of the block. -/
theorem C74_size {rz es s rs} (h : Run rz es s rs) (h8 : 8 ≤ rz) (hr : rz ≤ 0x10000000) {p b u}
    (hb : s.own p = some b) (hu : s.heap b.real = some u) :
    sizePre rz p s.tab = (b.real, []) ∧ b.size ≤ sizePost rz p u s.tab ∧
      p + sizePost rz p u s.tab + (if b.pre then 0 else rz) = b.real + u := by
  obtain ⟨role, i⟩ := inv_run h h8 hr
  obtain ⟨v, e, h1, h2, _, h4⟩ := i.block hb
  rw [hu] at h1
  cases h1
  obtain ⟨e', g1, g2⟩ := i.facts hb
  rw [h2] at g1
  cases g1
  have hp0 := i.nonzero hb
  have hpos := i.pos _ _ hu
  have hpre : isPreUs s.tab p = b.pre := by unfold isPreUs; rw [h2]; dsimp only; rw [g2.pre, g2.valid, Bool.and_true]
  have hvis : visible s.tab p = true := by unfold visible; rw [h2]; exact g2.valid
  unfold sizePre sizePost
  rw [hpre, hvis]
  rcases h4 with ⟨k1, k2, k3, _⟩ | ⟨k1, k2, k3, _⟩
  · rw [k1, if_pos rfl, if_neg (by simp), if_neg (by simp)]
    refine ⟨by rw [k2], by omega, ?_⟩
    rw [if_pos rfl]
    omega
  · rw [k1, if_pos rfl, if_pos ⟨hp0, rfl⟩, if_pos ⟨by omega, rfl, hp0⟩]
    have hm : (u + (W - rz * 2)) % W = u - rz * 2 := by
      unfold W top at *
      omega
    rw [hm]
    refine ⟨?_, by omega, ?_⟩
    · have : p - rz = b.real := by omega
      rw [this]
    · rw [if_neg (by simp)]
      omega

/-! ## Examples -/

/-- A malloc of 100 bytes, one after another, and a free. -/
def exRun : List Ev :=
  [.attach 0x9000 20 24, .malloc 0 100 .malloc, .under 0 0x1000 136, .post 0, .calloc 1 3 5 .malloc,
   .under 1 0x2000 64, .post 1, .free 0 0x1010 .malloc false 0x1000]

/-- The run of it. -/
theorem ex_run : Run 16 exRun (exRun.foldl (fun s e => (step 16 s e).1) St.init) [] := by
  have f0 : Fresh St.init 0x9000 24 := ⟨by decide, by decide, by decide, fun _ _ h => by cases h⟩
  have h1 := Run.snoc (.attach 0x9000 20 24) (Run.nil (rz := 16)) ⟨by decide, f0⟩ trivial
  have h2 := Run.snoc (.malloc 0 100 .malloc) h1 ⟨rfl, by decide, by decide⟩ trivial
  have h3 := Run.snoc (.under 0 0x1000 136) h2
    ⟨100, .malloc, 132, rfl, Or.inr ⟨⟨by decide, by decide, by decide, by
      intro r' u' h
      by_cases hh : r' = 0x9000
      · subst hh; cases h; right; decide
      · exfalso
        change upd (fun _ => none) 0x9000 _ r' = _ at h
        rw [upd_other _ _ _ _ hh] at h; cases h⟩, by decide⟩⟩ trivial
  have h4 := Run.snoc (.post 0) h3 ⟨100, .malloc, 0x1000, rfl⟩ trivial
  have h5 := Run.snoc (.calloc 1 3 5 .malloc) h4 ⟨rfl, by decide, by decide, by decide⟩ trivial
  have h6 := Run.snoc (.under 1 0x2000 64) h5
    ⟨15, .malloc, _, rfl, Or.inr ⟨⟨by decide, by decide, by decide, by
      intro r' u' h
      change upd (upd (fun _ => none) 0x9000 (some 24)) 0x1000 (some 136) r' = _ at h
      by_cases hh : r' = 0x1000
      · subst hh; rw [upd_self] at h; cases h; left; decide
      · rw [upd_other _ _ _ _ hh] at h
        by_cases hh : r' = 0x9000
        · subst hh; rw [upd_self] at h; cases h; right; decide
        · rw [upd_other _ _ _ _ hh] at h; cases h⟩, by decide⟩⟩ trivial
  have h7 := Run.snoc (.post 1) h6 ⟨15, .malloc, 0x2000, rfl⟩ trivial
  have h8 := Run.snoc (.free 0 0x1010 .malloc false 0x1000) h7
    ⟨rfl, by decide, by decide, Or.inr (Or.inl rfl)⟩ (Or.inr (by intro h; cases h))
  exact h8

/-- The block of calloc is owned, with 15 bytes, and the one from before the tool. -/
example : (exRun.foldl (fun s e => (step 16 s e).1) St.init).own 0x2010 = some ⟨15, .malloc, 0x2000, false⟩ ∧
    (exRun.foldl (fun s e => (step 16 s e).1) St.init).own 0x9000 = some ⟨20, .unknown, 0x9000, true⟩ ∧
    (exRun.foldl (fun s e => (step 16 s e).1) St.init).own 0x1010 = none ∧
    (exRun.foldl (fun s e => (step 16 s e).1) St.init).pend 0 = .freeing 0x1000 := by decide +kernel

/-- Its size is 32 less than the allocator says. -/
example : sizePost 16 0x2010 64 (exRun.foldl (fun s e => (step 16 s e).1) St.init).tab = 32 := by decide +kernel

/-- A second free of the first block is reported; delete[] of the calloc'ed one is a mismatch. -/
example : (step 16 (exRun.foldl (fun s e => (step 16 s e).1) St.init) (.free 1 0x1010 .malloc false 0)).2 =
      [.invalid 0x1010] ∧
    (step 16 (exRun.foldl (fun s e => (step 16 s e).1) St.init) (.free 1 0x2010 .newArray false 0)).2 =
      [.mismatch 0x2010 .malloc .newArray] := by decide +kernel

/-- delete[] 4 bytes inside is both. -/
example : (step 16 (exRun.foldl (fun s e => (step 16 s e).1) St.init) (.free 1 0x2014 .newArray false 0)).2 =
    [.mismatch 0x2010 .malloc .newArray, .invalid 0x2014] := by decide +kernel

/-- A product that does not fit. -/
example : callocArgs 16 0x100000000 0x100000000 = (0x100000000, 0x100000000) ∧
    W ≤ 0x100000000 * 0x100000000 := by decide +kernel

end Verif.Wrap
