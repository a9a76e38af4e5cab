import Verif.LeakRange
import Verif.LeakThms

/-! # The leak scan: which words of a range are looked at -/
namespace Verif.Leak
open Verif

/-- The facts about memory that the callbacks report: bytes that are defined, regions that are
scanned, stacks (empty unless exiting) and heap regions. -/
structure Facts where
  defd : Nat → Bool
  ok : Nat → Bool
  stk : Nat → Bool
  heap : Nat → Bool

/-- Eight defined bytes. -/
def Def8 (S : Facts) (a : Nat) : Prop := ∀ i, i < 8 → S.defd (a + i) = true

/-- What is assumed of the callbacks.  `next` skips no defined word; `endOf` stops before an
undefined byte or at the end of its range (it may run over others, see `C10_missed_undefined`);
regions tile the address space in pages and a stack consists of whole regions; heap regions end at a
multiple of 8. -/
structure Ok (M : Mem) (S : Facts) : Prop where
  query : ∀ pc, pc < 2 ^ 64 → ∃ r, M.query pc = some r
  region : ∀ pc r, M.query pc = some r → r.base ≤ pc ∧ pc < r.base + r.size ∧
    r.base + r.size ≤ 2 ^ 64 ∧ r.size + 4096 ≤ 2 ^ 64 ∧ (r.skip = false → r.base + r.size + 4096 ≤ 2 ^ 64) ∧
    ∀ a, pc ≤ a → a < alignF (r.base + r.size) 4096 → S.ok a = !r.skip ∧ S.stk a = S.stk pc ∧
      ∀ e, M.stack a = some e → alignF (r.base + r.size) 4096 ≤ e
  nextNone : ∀ pc stop, M.next pc stop = none →
    ∀ a, pc ≤ a → a % 8 = 0 → a + 8 ≤ stop → ¬ Def8 S a
  nextSome : ∀ pc stop p, pc < stop → M.next pc stop = some p → pc ≤ p ∧ p < stop ∧
    S.defd p = true ∧ ∀ a, pc ≤ a → a < p → a % 8 = 0 → a + 8 ≤ stop → ¬ Def8 S a
  endOf : ∀ p stop, p < stop → p ≤ M.endOf p stop ∧ M.endOf p stop ≤ stop ∧
    (M.endOf p stop = stop ∨ S.defd (M.endOf p stop) = false) ∧
    (S.defd p = true → p < M.endOf p stop)
  stackNone : ∀ p, M.stack p = none → S.stk p = false
  stackSome : ∀ p e, M.stack p = some e → p < e ∧ ∀ a, p ≤ a → a < e → S.stk a = true
  heapNone : ∀ p, M.heapEnd p = none → S.heap p = false
  heapSome : ∀ p e, M.heapEnd p = some e → p < e ∧ e % 8 = 0 ∧ ∀ a, p ≤ a → a < e → S.heap a = true

/-- A pointer-sized, pointer-aligned place in the range that the scan is meant to look at, apart from
its definedness. -/
def Cand (M : Mem) (S : Facts) (skipHeap : Bool) (lo stop a v : Nat) : Prop :=
  lo ≤ a ∧ a % 8 = 0 ∧ a + 8 ≤ stop ∧ S.ok a = true ∧ S.stk a = false ∧
  (skipHeap = true → S.heap a = false) ∧ M.read a = some v

/-- The end of a defined range is exact. -/
def Exact (M : Mem) (S : Facts) : Prop :=
  ∀ p stop, p < stop → ∀ a, p ≤ a → a < M.endOf p stop → S.defd a = true

theorem alignF_spec (a n : Nat) (hn : 0 < n) : a ≤ alignF a n ∧ alignF a n < a + n ∧
    alignF a n % n = 0 ∧ ∀ b, b % n = 0 → a ≤ b → alignF a n ≤ b := by
  unfold alignF
  have h1 := Nat.div_add_mod (a + (n - 1)) n
  have h2 := Nat.mod_lt (a + (n - 1)) hn
  rw [Nat.mul_comm] at h1
  refine ⟨by omega, by omega, Nat.mul_mod_left _ _, ?_⟩
  intro b hb hab
  have h3 := Nat.div_add_mod b n
  rw [hb, Nat.add_zero, Nat.mul_comm] at h3
  rw [← h3]
  refine Nat.mul_le_mul_right n ?_
  rw [Nat.div_le_iff_le_mul hn]
  omega

theorem inner_spec {M : Mem} {S : Facts} (h : Ok M S) (sk : Bool) (dend : Nat) : ∀ (n pc : Nat),
    pc % 8 = 0 → 0 < n → dend < n + pc →
    ∃ ws, inner M sk dend n pc = some ws ∧
      (∀ w ∈ ws, pc ≤ w.addr ∧ w.addr % 8 = 0 ∧ w.addr + 8 ≤ dend ∧ w.dend = dend ∧
        (sk = true → S.heap w.addr = false) ∧ M.read w.addr = some w.val) ∧
      (∀ a v, pc ≤ a → a % 8 = 0 → a + 8 ≤ dend → (sk = true → S.heap a = false) →
        M.read a = some v → ⟨a, v, dend⟩ ∈ ws) ∧
      ws.Pairwise (fun x y => x.addr < y.addr) := by
  intro n
  induction n with
  | zero =>
    intro pc _ h0
    omega
  | succ n ih =>
    intro pc hpc _ hn
    unfold inner
    by_cases hg : pc < dend ∧ pc + 8 ≤ dend
    · rw [if_pos hg]
      cases hh : (if sk = true then M.heapEnd pc else none) with
      | some ce =>
        dsimp only
        have hsk : sk = true ∧ M.heapEnd pc = some ce := by
          cases sk
          · simp at hh
          · exact ⟨rfl, by simpa using hh⟩
        obtain ⟨h1, h2, h3⟩ := h.heapSome pc ce hsk.2
        obtain ⟨ws, e1, e2, e3, e4⟩ := ih ce h2 (by omega) (by omega)
        refine ⟨ws, e1, ?_, ?_, e4⟩
        · intro w hw
          obtain ⟨k1, k2⟩ := e2 w hw
          exact ⟨by omega, k2⟩
        · intro a v ha h8 hd hhp hr
          refine e3 a v ?_ h8 hd hhp hr
          refine Nat.le_of_not_lt fun hlt => ?_
          have := h3 a ha hlt
          rw [hhp hsk.1] at this
          cases this
      | none =>
        dsimp only
        have hnh : sk = true → S.heap pc = false := by
          intro hs
          rw [if_pos hs] at hh
          exact h.heapNone pc hh
        obtain ⟨ws, e1, e2, e3, e4⟩ := ih (pc + 8) (by omega) (by omega) (by omega)
        cases hr : M.read pc with
        | none =>
          dsimp only
          refine ⟨ws, e1, ?_, ?_, e4⟩
          · intro w hw
            obtain ⟨k1, k2⟩ := e2 w hw
            exact ⟨by omega, k2⟩
          · intro a v ha h8 hd hhp hra
            refine e3 a v ?_ h8 hd hhp hra
            have : a ≠ pc := by intro e; rw [e, hr] at hra; cases hra
            omega
        | some v =>
          dsimp only
          rw [e1]
          refine ⟨⟨pc, v, dend⟩ :: ws, rfl, ?_, ?_, ?_⟩
          · intro w hw
            rcases List.mem_cons.1 hw with rfl | hw
            · exact ⟨Nat.le_refl _, hpc, hg.2, rfl, hnh, hr⟩
            · obtain ⟨k1, k2⟩ := e2 w hw
              exact ⟨by omega, k2⟩
          · intro a v' ha h8 hd hhp hra
            by_cases hap : a = pc
            · subst hap
              rw [hr] at hra
              rw [Option.some.inj hra]
              exact List.mem_cons_self
            · exact List.mem_cons_of_mem _ (e3 a v' (by omega) h8 hd hhp hra)
          · rw [List.pairwise_cons]
            refine ⟨?_, e4⟩
            intro w hw
            have := (e2 w hw).1
            show pc < w.addr
            omega
    · rw [if_neg hg]
      refine ⟨[], rfl, by simp, ?_, List.Pairwise.nil⟩
      intro a v ha _ hd
      omega

/-- What a scan from `pc` on returns. -/
structure Result (M : Mem) (S : Facts) (sk : Bool) (pc stop : Nat) (ws : List Word) : Prop where
  sound : ∀ w ∈ ws, Cand M S sk pc stop w.addr w.val ∧ w.addr + 8 ≤ w.dend ∧ w.dend ≤ stop ∧
    (Exact M S → Def8 S w.addr ∧ (w.dend = stop ∨ S.defd w.dend = false ∨ w.dend % 4096 = 0))
  complete : ∀ a v, Cand M S sk pc stop a v → Def8 S a → ∃ d, ⟨a, v, d⟩ ∈ ws
  sorted : ws.Pairwise fun x y => x.addr < y.addr

theorem Result.weaken {M : Mem} {S : Facts} {sk : Bool} {pc p stop : Nat} {ws : List Word}
    (h : Result M S sk p stop ws) (hp : pc ≤ p)
    (hno : ∀ a v, a < p → Cand M S sk pc stop a v → ¬ Def8 S a) : Result M S sk pc stop ws := by
  refine ⟨?_, ?_, h.sorted⟩
  · intro w hw
    obtain ⟨h1, h2⟩ := h.sound w hw
    exact ⟨⟨Nat.le_trans hp h1.1, h1.2⟩, h2⟩
  · intro a v hc hd
    refine h.complete a v ⟨?_, hc.2⟩ hd
    exact Nat.le_of_not_lt fun hlt => hno a v hlt hc hd

theorem Result.nil {M : Mem} {S : Facts} {sk : Bool} {pc stop : Nat}
    (hno : ∀ a v, Cand M S sk pc stop a v → ¬ Def8 S a) : Result M S sk pc stop [] :=
  ⟨by simp, fun a v h1 h2 => absurd h2 (hno a v h1), List.Pairwise.nil⟩

/-- The rest of the current region: all of it is scanned, or in a stack, alike. -/
def InRegion (M : Mem) (S : Facts) (pc qe : Nat) : Prop :=
  qe % 4096 = 0 ∧ ∀ a, pc ≤ a → a < qe → S.ok a = true ∧ S.stk a = S.stk pc ∧
    ∀ e, M.stack a = some e → qe ≤ e

theorem InRegion.mono {M : Mem} {S : Facts} {pc p qe : Nat} (h : InRegion M S pc qe) (hp : pc ≤ p) (hq : p < qe) :
    InRegion M S p qe := by
  refine ⟨h.1, fun a h1 h2 => ⟨(h.2 a (by omega) h2).1, ?_, (h.2 a (by omega) h2).2.2⟩⟩
  rw [(h.2 a (by omega) h2).2.1, (h.2 p hp hq).2.1]

theorem range_spec {M : Mem} {S : Facts} (h : Ok M S) (sk : Bool) {stop qe pc : Nat}
    (hq : InRegion M S pc qe) (hst : S.stk pc = false)
    (hlt : pc < (if qe < stop then qe else stop)) {k : Nat → Option (List Word)}
    (hk : ∀ p, alignF (M.endOf pc (if qe < stop then qe else stop)) 8 = p →
      ∃ ws, k p = some ws ∧ Result M S sk p stop ws) :
    ∃ ws, range M sk (if qe < stop then qe else stop) pc k = some ws ∧ Result M S sk pc stop ws := by
  generalize hie : (if qe < stop then qe else stop) = iterEnd at hlt hk
  have hile : iterEnd ≤ stop := by split at hie <;> omega
  have hiq : iterEnd ≤ qe := by split at hie <;> omega
  have hi : iterEnd = stop ∨ iterEnd % 4096 = 0 := by
    split at hie
    · right; rw [← hie]; exact hq.1
    · exact .inl hie.symm
  unfold range
  dsimp only
  obtain ⟨d1, d2, d3, d4⟩ := h.endOf pc iterEnd hlt
  generalize hde : M.endOf pc iterEnd = dend at d1 d2 d3 d4 hk
  obtain ⟨a1, a2, a3, a4⟩ := alignF_spec pc 8 (by omega)
  obtain ⟨b1, b2, b3, b4⟩ := alignF_spec dend 8 (by omega)
  obtain ⟨ws, e1, e2, e3, e4⟩ := inner_spec h sk dend (dend + 1 - alignF pc 8 + 1) (alignF pc 8) a3
    (by omega) (by omega)
  obtain ⟨ws', f1, f2⟩ := hk _ rfl
  rw [e1, Option.bind_some, f1]
  refine ⟨ws ++ ws', rfl, ?_, ?_, ?_⟩
  · intro w hw
    rcases List.mem_append.1 hw with hw | hw
    · obtain ⟨k1, k2, k3, k4, k5, k6⟩ := e2 w hw
      have kr := hq.2 w.addr (by omega) (by omega)
      refine ⟨⟨by omega, k2, by omega, kr.1, by rw [kr.2.1]; exact hst, k5, k6⟩, by omega, by omega, ?_⟩
      intro hex
      refine ⟨?_, ?_⟩
      · intro i hi8
        exact hex pc iterEnd hlt _ (by omega) (by rw [hde]; omega)
      · rw [k4]
        rcases d3 with d | d
        · rcases hi with hi | hi
          · left; omega
          · right; right; rw [d]; exact hi
        · exact .inr (.inl d)
    · obtain ⟨k1, k2⟩ := f2.sound w hw
      refine ⟨⟨?_, k1.2⟩, k2⟩
      have := k1.1
      omega
  · intro a v hc hd
    by_cases ha : a + 8 ≤ dend
    · exact ⟨dend, List.mem_append_left _ (e3 a v (a4 a hc.2.1 hc.1) hc.2.1 ha hc.2.2.2.2.2.1
        hc.2.2.2.2.2.2)⟩
    · have hge : alignF dend 8 ≤ a := by
        refine Nat.le_of_not_lt fun hlt' => ?_
        have hda : a < dend := by
          refine Nat.lt_of_not_le fun hle => ?_
          have := b4 a hc.2.1 hle
          omega
        rcases d3 with d | d
        · rcases hi with hi | hi
          · have := hc.2.2.1; omega
          · have := hc.2.1
            omega
        · have := hd (dend - a) (by omega)
          rw [show a + (dend - a) = dend by omega, d] at this
          cases this
      obtain ⟨x, hx⟩ := f2.complete a v ⟨hge, hc.2⟩ hd
      exact ⟨x, List.mem_append_right _ hx⟩
  · rw [List.pairwise_append]
    refine ⟨e4, f2.sorted, ?_⟩
    intro x hx y hy
    have h1 := (e2 x hx).2.2.1
    have h2 := (f2.sound y hy).1.1
    omega

theorem round_spec {M : Mem} {S : Facts} (h : Ok M S) (sk : Bool) {stop qe pc : Nat}
    (hq : InRegion M S pc qe) (hlt : pc < stop) (hlq : pc < qe) {k : Nat → Option (List Word)}
    (hk : ∀ p, pc < p → (p < qe → InRegion M S p qe) →
      ∃ ws, k p = some ws ∧ Result M S sk p stop ws) :
    ∃ ws, round M sk stop pc qe k = some ws ∧ Result M S sk pc stop ws := by
  have hie : pc < (if qe < stop then qe else stop) := by split <;> omega
  have hi : (if qe < stop then qe else stop) = stop ∨ (if qe < stop then qe else stop) = qe := by
    split
    · exact .inr rfl
    · exact .inl rfl
  have hiq : (if qe < stop then qe else stop) ≤ qe := by split <;> omega
  have hq4 := hq.1
  unfold round
  dsimp only
  cases hn : M.next pc (if qe < stop then qe else stop) with
  | none =>
    dsimp only
    obtain ⟨ws, e1, e2⟩ := hk _ hie fun hp => hq.mono (Nat.le_of_lt hie) hp
    refine ⟨ws, e1, e2.weaken (Nat.le_of_lt hie) ?_⟩
    intro a v ha hc
    refine h.nextNone _ _ hn a hc.1 hc.2.1 ?_
    have := hc.2.1
    have := hc.2.2.1
    omega
  | some p =>
    dsimp only
    obtain ⟨p1, p2, p3, p4⟩ := h.nextSome _ _ _ hie hn
    have hpq : p < qe := by omega
    have hskip : ∀ a v, a < p → Cand M S sk pc stop a v → ¬ Def8 S a := by
      intro a v ha hc
      refine p4 a hc.1 ha hc.2.1 ?_
      have := hc.2.1
      have := hc.2.2.1
      omega
    cases hs : M.stack p with
    | none =>
      dsimp only
      have hst := h.stackNone p hs
      obtain ⟨ws, e1, e2⟩ := range_spec h sk (hq.mono p1 hpq) hst p2 (k := k) (by
        rintro q rfl
        obtain ⟨d1, d2, d3, d4⟩ := h.endOf p _ p2
        have := d4 p3
        have := (alignF_spec (M.endOf p (if qe < stop then qe else stop)) 8 (by omega)).1
        exact hk _ (by omega) fun hp => hq.mono (by omega) hp)
      exact ⟨ws, e1, e2.weaken p1 hskip⟩
    | some e =>
      dsimp only
      obtain ⟨s1, s2⟩ := h.stackSome p e hs
      by_cases hee : e ≥ (if qe < stop then qe else stop)
      · rw [if_pos hee]
        obtain ⟨ws, e1, e2⟩ := hk e (by omega) fun hp => hq.mono (by omega) hp
        refine ⟨ws, e1, e2.weaken (by omega) ?_⟩
        intro a v ha hc
        by_cases hap : a < p
        · exact hskip a v hap hc
        · have := s2 a (by omega) ha
          rw [hc.2.2.2.2.1] at this
          cases this
      · rw [if_neg hee]
        have := (hq.2 p p1 hpq).2.2 e hs
        omega

theorem scanGo_spec {M : Mem} {S : Facts} (h : Ok M S) (sk : Bool) {stop : Nat} (hs : stop < 2 ^ 64) :
    ∀ (n pc qe : Nat), 0 < n → stop < n + pc → (pc < qe → InRegion M S pc qe) →
    ∃ ws, scanGo M sk stop n pc qe = some ws ∧ Result M S sk pc stop ws := by
  intro n
  induction n with
  | zero => intro pc qe h0; omega
  | succ n ih =>
    intro pc qe _ hn hq
    unfold scanGo
    by_cases hlt : pc < stop
    · rw [if_pos hlt]
      by_cases hqe : pc ≥ qe
      · rw [if_pos hqe]
        obtain ⟨r, hr⟩ := h.query pc (by omega)
        obtain ⟨r1, r2, r3, r0, r4, r5⟩ := h.region pc r hr
        obtain ⟨a1, a2, a3, -⟩ := alignF_spec (r.base + r.size) 4096 (by omega)
        have hle : alignF (r.base + r.size) 4096 ≤ 2 ^ 64 := by
          have : (2 ^ 64 : Nat) % 4096 = 0 := by decide
          omega
        rw [hr]
        dsimp only
        cases hsk : r.skip with
        | true =>
          rw [if_pos rfl]
          have hno : ∀ a v, a < alignF (r.base + r.size) 4096 → Cand M S sk pc stop a v → ¬ Def8 S a := by
            intro a v ha hc
            have := (r5 a hc.1 ha).1
            rw [hc.2.2.2.1, hsk] at this
            cases this
          by_cases hw : r.qend < pc
          · rw [if_pos hw]
            refine ⟨[], rfl, Result.nil ?_⟩
            intro a v hc
            refine hno a v ?_ hc
            have htop : alignF (r.base + r.size) 4096 = 2 ^ 64 := by
              refine Classical.byContradiction fun hne => ?_
              unfold Region.qend at hw
              rw [Nat.mod_eq_of_lt (by omega)] at hw
              omega
            have := hc.2.2.1
            omega
          · rw [if_neg hw]
            have hqe : r.qend = alignF (r.base + r.size) 4096 := by
              unfold Region.qend
              refine Nat.mod_eq_of_lt ?_
              refine Nat.lt_of_not_le fun hge => hw ?_
              unfold Region.qend
              rw [Nat.le_antisymm hle hge, Nat.mod_self]
              omega
            rw [hqe]
            obtain ⟨ws, e1, e2⟩ := ih (alignF (r.base + r.size) 4096)
              (alignF (r.base + r.size) 4096) (by omega) (by omega) (fun hh => absurd hh (Nat.lt_irrefl _))
            exact ⟨ws, e1, e2.weaken (by omega) hno⟩
        | false =>
          rw [if_neg (by simp)]
          have hqe : r.qend = alignF (r.base + r.size) 4096 := by
            unfold Region.qend
            have := r4 hsk
            exact Nat.mod_eq_of_lt (by omega)
          have hin : InRegion M S pc r.qend := by
            rw [hqe]
            refine ⟨a3, fun a h1 h2 => ?_⟩
            obtain ⟨k1, k2⟩ := r5 a h1 h2
            rw [hsk] at k1
            exact ⟨k1, k2⟩
          exact round_spec h sk hin hlt (by omega) fun p hp hin' =>
            ih p r.qend (by omega) (by omega) hin'
      · rw [if_neg hqe]
        exact round_spec h sk (hq (by omega)) hlt (by omega) fun p hp hin' =>
          ih p qe (by omega) (by omega) hin'
    · rw [if_neg hlt]
      refine ⟨[], rfl, Result.nil ?_⟩
      intro a v hc
      have h1 := hc.1
      have h2 := hc.2.2.1
      omega

/-- **C28**, which words are looked at.  The scan of a range stops; it hands over, in ascending order,
every aligned, fully defined word of the scanned regions outside stacks (when exiting) and, if asked
to, outside the heap; and nothing that is not such a word, where the ends of defined ranges are
exact. -/
theorem C28_words {M : Mem} {S : Facts} (h : Ok M S) (sk : Bool) {start stop : Nat}
    (hs : stop < 2 ^ 64) :
    ∃ ws, scan M sk start stop = some ws ∧
      (∀ a v, Cand M S sk start stop a v → Def8 S a → ∃ d, ⟨a, v, d⟩ ∈ ws) ∧
      (∀ w ∈ ws, Cand M S sk start stop w.addr w.val ∧ (Exact M S → Def8 S w.addr)) ∧
      ws.Pairwise (fun x y => x.addr < y.addr) := by
  obtain ⟨ws, e1, e2⟩ := scanGo_spec h sk hs (stop + 1 - start + 1) start 0 (by omega) (by omega)
    (fun hh => absurd hh (Nat.not_lt_zero _))
  exact ⟨ws, e1, e2.complete, fun w hw => ⟨(e2.sound w hw).1, fun hx => ((e2.sound w hw).2.2.2 hx).1⟩,
    e2.sorted⟩

/-- **C28**, the end of the defined range passed on with a word: it lies behind the word and, where
exact, is the end of the range, an undefined byte or a page boundary. -/
theorem C28_words_end {M : Mem} {S : Facts} (h : Ok M S) (sk : Bool) {start stop : Nat}
    (hs : stop < 2 ^ 64) {ws : List Word} (hws : scan M sk start stop = some ws) :
    ∀ w ∈ ws, w.addr + 8 ≤ w.dend ∧ w.dend ≤ stop ∧
      (Exact M S → w.dend = stop ∨ S.defd w.dend = false ∨ w.dend % 4096 = 0) := by
  obtain ⟨ws', e1, e2⟩ := scanGo_spec h sk hs (stop + 1 - start + 1) start 0 (by omega) (by omega)
    (fun hh => absurd hh (Nat.not_lt_zero _))
  obtain rfl := Option.some.inj (e1.symm.trans hws)
  intro w hw
  obtain ⟨-, h1, h2, h3⟩ := e2.sound w hw
  exact ⟨h1, h2, fun hx => (h3 hx).2⟩

theorem Env.ofMem_wf {M : Mem} {S : Facts} (h : Ok M S) {chunks : List Chunk}
    {regs : List (Nat × Nat)} {low : Nat} {isStr : Nat → Nat → Bool} {legit : Nat → Nat → Nat → Bool}
    {dbg : Bool} (h1 : ∀ c ∈ chunks, 0 < c.size ∧ c.base + c.size < 2 ^ 64 ∧ low ≤ c.base ∧
      4096 ≤ c.base ∧ ∀ a, c.Covers a → S.heap a = true)
    (h2 : chunks.Pairwise fun a b => a.stop ≤ b.base ∨ b.stop ≤ a.base)
    (h3 : ∀ r ∈ regs, r.1 < 4096) : WF (Env.ofMem M chunks regs low isStr legit dbg) := by
  refine ⟨fun c hc => (h1 c hc).1, fun c hc => (h1 c hc).2.1, fun c hc => (h1 c hc).2.2.1,
    fun c hc => ?_, h2, ?_, ?_⟩
  · have := (h1 c hc).2.2.2.1
    omega
  · intro c hc w hw
    obtain ⟨ws, e1, -, e2, -⟩ := C28_words h false (start := c.base) (stop := c.stop)
      (h1 c hc).2.1
    simp only [Env.ofMem, e1, Option.getD_some] at hw
    have := (e2 w hw).1
    exact ⟨this.1, by have := this.2.2.1; omega⟩
  · intro w hw c hc hcov
    obtain ⟨ws, e1, -, e2, -⟩ := C28_words h true (start := 0) (stop := 2 ^ 64 - 1) (by omega)
    simp only [Env.ofMem, e1, Option.getD_some] at hw
    rcases List.mem_append.1 hw with hw | hw
    · obtain ⟨r, hr, rfl⟩ := List.mem_map.1 hw
      have k1 := h3 r hr
      have k2 := (h1 c hc).2.2.2.1
      unfold Chunk.Covers at hcov
      dsimp only at hcov
      omega
    · have k1 := (e2 w hw).1.2.2.2.2.2.1 rfl
      rw [(h1 c hc).2.2.2.2 _ hcov] at k1
      cases k1

/-! ## Reachability in terms of memory -/

/-- The value points to the start of the chunk from a place outside of it (no heuristics). -/
def Target (c : Chunk) (a v : Nat) : Prop := v = c.base ∧ ¬ c.Covers a

/-- Reachable: pointed to from a register, from a defined aligned word of non-heap memory, or from a
defined aligned word of a reachable chunk. -/
inductive MemReach (M : Mem) (S : Facts) (chunks : List Chunk) (regs : List (Nat × Nat)) :
    Chunk → Prop
  | reg {c : Chunk} {r : Nat × Nat} : c ∈ chunks → r ∈ regs → r.2 = c.base →
      MemReach M S chunks regs c
  | root {c : Chunk} {a v : Nat} : c ∈ chunks → Cand M S true 0 (2 ^ 64 - 1) a v → Def8 S a →
      v = c.base → MemReach M S chunks regs c
  | step {d c : Chunk} {a v : Nat} : MemReach M S chunks regs d → c ∈ chunks →
      Cand M S false d.base d.stop a v → Def8 S a → Target c a v → MemReach M S chunks regs c

/-- **C28**, from memory to reports.  With the string and mid-chunk heuristics off and exact ends of
defined ranges, a block is passed on as reachable exactly if a chain of aligned, defined pointers to
block starts leads to it from a register or non-heap memory. -/
theorem C28_memory {M : Mem} {S : Facts} (h : Ok M S) (hx : Exact M S) {chunks : List Chunk}
    {regs : List (Nat × Nat)} {low : Nat} {dbg : Bool}
    (h1 : ∀ c ∈ chunks, 0 < c.size ∧ c.base + c.size < 2 ^ 64 ∧ low ≤ c.base ∧
      4096 ≤ c.base ∧ ∀ a, c.Covers a → S.heap a = true)
    (h2 : chunks.Pairwise fun a b => a.stop ≤ b.base ∨ b.stop ≤ a.base)
    (h3 : ∀ r ∈ regs, r.1 < 4096) {c : Chunk} (hc : c ∈ chunks) (hi : c.ignore = false) :
    ∃ L, leakScan (Env.ofMem M chunks regs low (fun _ _ => false) (fun _ _ _ => false) dbg) = some L ∧
      (MemReach M S chunks regs c ↔ ∃ r ∈ L, r.base = c.base ∧ r.reach = true) := by
  have hwf : WF (Env.ofMem M chunks regs low (fun _ _ => false) (fun _ _ _ => false) dbg) :=
    Env.ofMem_wf h h1 h2 h3
  obtain ⟨-, -, -, hL⟩ := C28_total hwf
  obtain ⟨L, hL⟩ := Option.isSome_iff_exists.1 hL
  refine ⟨L, hL, ?_⟩
  rw [← C28_reachable hwf hL (c := c) hc hi]
  clear hc hi
  have hhead : ∀ (w : Word) (d : Chunk),
      Head (Env.ofMem M chunks regs low (fun _ _ => false) (fun _ _ _ => false) dbg) w d ↔
      d ∈ chunks ∧ Target d w.addr w.val := by
    intro w d
    unfold Head Counts Target
    simp only [Env.ofMem]
    constructor
    · rintro ⟨⟨k1, k2, -⟩, k3 | ⟨-, -, k⟩⟩
      · exact ⟨k1, k3, k2⟩
      · cases k
    · rintro ⟨k1, k3, k2⟩
      exact ⟨⟨k1, k2, by simp⟩, .inl k3⟩
  obtain ⟨rs, e1, e2, e3, -⟩ := C28_words h true (start := 0) (stop := 2 ^ 64 - 1) (by omega)
  have hout : ∀ a v, Cand M S true 0 (2 ^ 64 - 1) a v → ∀ d ∈ chunks, ¬ d.Covers a := by
    intro a v hcd d hd hcov
    have := hcd.2.2.2.2.2.1 rfl
    rw [(h1 d hd).2.2.2.2 a hcov] at this
    cases this
  constructor
  · intro hm
    induction hm with
    | reg k1 k2 k3 =>
      refine .root (w := ⟨_, _, 0⟩) (List.mem_append_left _ (List.mem_map.2 ⟨_, k2, rfl⟩)) ?_
      rw [hhead]
      refine ⟨k1, k3, ?_⟩
      have m1 := h3 _ k2
      have m2 := (h1 _ k1).2.2.2.1
      unfold Chunk.Covers
      dsimp only
      omega
    | root k1 k2 k3 k4 =>
      obtain ⟨d, hd⟩ := e2 _ _ k2 k3
      refine .root (w := ⟨_, _, d⟩) (List.mem_append_right _ ?_) ((hhead _ _).2 ⟨k1, k4, hout _ _ k2 _ k1⟩)
      rw [e1]; exact hd
    | step k0 k1 k2 k3 k4 ih =>
      rename_i d c' a v
      have hd : d ∈ chunks := by
        cases k0 with
        | reg k _ _ => exact k
        | root k _ _ _ => exact k
        | step _ k _ _ _ => exact k
      obtain ⟨ws, f1, f2, -, -⟩ := C28_words h false (start := d.base) (stop := d.stop) (h1 d hd).2.1
      obtain ⟨x, hx⟩ := f2 _ _ k2 k3
      refine .step (w := ⟨_, _, x⟩) ih ?_ ((hhead _ _).2 ⟨k1, k4⟩)
      simp only [Env.ofMem, f1, Option.getD_some]
      exact hx
  · intro hm
    induction hm with
    | root hw hh =>
      rename_i w d
      obtain ⟨m1, m2⟩ := (hhead _ _).1 hh
      rcases List.mem_append.1 hw with hw | hw
      · obtain ⟨r, hr, rfl⟩ := List.mem_map.1 hw
        exact .reg m1 hr m2.1
      · rw [e1] at hw
        obtain ⟨k1, k2⟩ := e3 w hw
        exact .root m1 k1 (k2 hx) m2.1
    | step hr hw hh ih =>
      rename_i d c' w
      obtain ⟨m1, m2⟩ := (hhead _ _).1 hh
      have hd : d ∈ chunks := hr.mem
      obtain ⟨ws, f1, -, f3, -⟩ := C28_words h false (start := d.base) (stop := d.stop) (h1 d hd).2.1
      simp only [Env.ofMem, f1, Option.getD_some] at hw
      obtain ⟨k1, k2⟩ := f3 w hw
      exact .step ih m1 k1 (k2 hx) m2

/-! ## Callbacks meeting the requirements -/

/-- The first address of a range with a property. -/
def first (p : Nat → Bool) (lo hi : Nat) : Option Nat :=
  (List.range (hi - lo)).findSome? fun i => if p (lo + i) then some (lo + i) else none

theorem first_none {p : Nat → Bool} {lo hi : Nat} (h : first p lo hi = none) {a : Nat} (h1 : lo ≤ a)
    (h2 : a < hi) : p a = false := by
  unfold first at h
  rw [List.findSome?_eq_none_iff] at h
  have := h (a - lo) (List.mem_range.2 (by omega))
  rw [show lo + (a - lo) = a by omega] at this
  cases hp : p a
  · rfl
  · rw [if_pos hp] at this; cases this

theorem first_some {p : Nat → Bool} {lo hi a : Nat} (h : first p lo hi = some a) :
    lo ≤ a ∧ a < hi ∧ p a = true ∧ ∀ b, lo ≤ b → b < a → p b = false := by
  unfold first at h
  rw [List.findSome?_eq_some_iff] at h
  obtain ⟨l1, x, l2, h1, h2, h3⟩ := h
  have hx : p (lo + x) = true ∧ lo + x = a := by
    by_cases hp : p (lo + x) = true
    · rw [if_pos hp] at h2; exact ⟨hp, Option.some.inj h2⟩
    · rw [if_neg hp] at h2; cases h2
  have hlen : (List.range (hi - lo))[l1.length]? = some x := by rw [h1]; simp
  rw [List.getElem?_eq_some_iff] at hlen
  obtain ⟨hl, hl2⟩ := hlen
  rw [List.getElem_range] at hl2
  rw [List.length_range] at hl
  refine ⟨by omega, by omega, by rw [← hx.2]; exact hx.1, ?_⟩
  intro b hb1 hb2
  have hmem : b - lo ∈ l1 := by
    have hb : (List.range (hi - lo))[b - lo]? = some (b - lo) := by
      rw [List.getElem?_range (by omega)]
    rw [h1, List.getElem?_append_left (by omega)] at hb
    exact List.mem_of_getElem? hb
  have := h3 _ hmem
  rw [show lo + (b - lo) = b by omega] at this
  cases hp : p b
  · rfl
  · rw [if_pos hp] at this; cases this

/-- A memory of two pages at 0x10000, the second one heap, with the given contents. -/
def demo (defd : Nat → Bool) (read : Nat → Option Nat) : Mem where
  query pc := if pc < 0x10000 then some ⟨0, 0x10000, true⟩
    else if pc < 0x12000 then some ⟨0x10000, 0x2000, false⟩
    else if pc < 2 ^ 64 then some ⟨0x12000, 2 ^ 64 - 0x12000, true⟩ else none
  next pc stop := first defd pc stop
  endOf p stop := (first (fun a => !defd a) p stop).getD stop
  stack _ := none
  heapEnd p := if 0x11000 ≤ p ∧ p < 0x12000 then some 0x12000 else none
  read := read

/-- The facts reported by `demo`. -/
def demoFacts (defd : Nat → Bool) : Facts where
  defd := defd
  ok a := decide (0x10000 ≤ a ∧ a < 0x12000)
  stk _ := false
  heap a := decide (0x11000 ≤ a ∧ a < 0x12000)

theorem demo_exact (defd : Nat → Bool) (read : Nat → Option Nat) :
    Exact (demo defd read) (demoFacts defd) := by
  intro p stop hlt a h1 h2
  simp only [demo] at h2
  simp only [demoFacts]
  cases hf : first (fun a => !defd a) p stop with
  | none =>
    rw [hf, Option.getD_none] at h2
    simpa using first_none hf h1 h2
  | some q =>
    rw [hf, Option.getD_some] at h2
    simpa using (first_some hf).2.2.2 a h1 h2

theorem demo_ok (defd : Nat → Bool) (read : Nat → Option Nat) :
    Ok (demo defd read) (demoFacts defd) := by
  have h64 : (2 : Nat) ^ 64 = 18446744073709551616 := rfl
  refine ⟨?_, ?_, ?_, ?_, ?_, fun _ _ => rfl, ?_, ?_, ?_⟩
  · intro pc _
    simp only [demo]
    split
    · exact ⟨_, rfl⟩
    · split
      · exact ⟨_, rfl⟩
      · exact ⟨_, rfl⟩
  · intro pc r hr
    simp only [demo] at hr
    simp only [demo, demoFacts]
    split at hr
    · obtain rfl := Option.some.inj hr
      dsimp only
      obtain ⟨a1, a2, a3, a4⟩ := alignF_spec (0 + 0x10000) 4096 (by omega)
      have := a4 0x10000 (by omega) (by omega)
      refine ⟨by omega, by omega, by omega, by omega, by simp, ?_⟩
      intro a h1 h2
      refine ⟨?_, trivial, by simp⟩
      rw [Bool.not_true, decide_eq_false_iff_not]
      omega
    · split at hr
      · obtain rfl := Option.some.inj hr
        dsimp only
        obtain ⟨a1, a2, a3, a4⟩ := alignF_spec (0x10000 + 0x2000) 4096 (by omega)
        have := a4 0x12000 (by omega) (by omega)
        refine ⟨by omega, by omega, by omega, by omega, fun _ => by omega, ?_⟩
        intro a h1 h2
        refine ⟨?_, trivial, by simp⟩
        rw [Bool.not_false, decide_eq_true_iff]
        omega
      · split at hr
        · obtain rfl := Option.some.inj hr
          dsimp only
          obtain ⟨a1, a2, a3, a4⟩ := alignF_spec (0x12000 + (2 ^ 64 - 0x12000)) 4096 (by omega)
          refine ⟨by omega, by omega, by omega, by omega, by simp, ?_⟩
          intro a h1 h2
          refine ⟨?_, trivial, by simp⟩
          rw [Bool.not_true, decide_eq_false_iff_not]
          omega
        · cases hr
  · intro pc stop hn a h1 _ h3 hd
    have := first_none hn h1 (by omega)
    have := hd 0 (by omega)
    simp_all [demoFacts]
  · intro pc stop p _ hn
    obtain ⟨k1, k2, k3, k4⟩ := first_some hn
    refine ⟨k1, k2, k3, fun a h1 h2 _ _ hd => ?_⟩
    have := k4 a h1 h2
    have := hd 0 (by omega)
    simp_all [demoFacts]
  · intro p stop hlt
    simp only [demo, demoFacts]
    cases hf : first (fun a => !defd a) p stop with
    | none =>
      rw [Option.getD_none]
      exact ⟨by omega, Nat.le_refl _, .inl rfl, fun _ => hlt⟩
    | some q =>
      rw [Option.getD_some]
      obtain ⟨k1, k2, k3, k4⟩ := first_some hf
      have k3' : defd q = false := by simpa using k3
      refine ⟨k1, by omega, .inr k3', fun hp => ?_⟩
      have : p ≠ q := by intro e; rw [e, k3'] at hp; cases hp
      omega
  · intro p e he
    simp [demo] at he
  · intro p he
    simp only [demo] at he
    simp only [demoFacts, decide_eq_false_iff_not]
    intro hh
    rw [if_pos hh] at he
    cases he
  · intro p e he
    simp only [demo] at he
    split at he
    · rename_i hh
      obtain rfl := Option.some.inj he
      refine ⟨by omega, by omega, fun a h1 h2 => ?_⟩
      simp only [demoFacts, decide_eq_true_iff]
      omega
    · cases he

/-- The callbacks find, in 56 bytes with two defined stretches, the three words meant. -/
example : scan (demo (fun a => decide (a < 0x10013) || decide (0x10019 ≤ a)) fun a => some (a + 1))
    false 0x10000 0x10038 =
    some [⟨0x10000, 0x10001, 0x10013⟩, ⟨0x10008, 0x10009, 0x10013⟩, ⟨0x10020, 0x10021, 0x10038⟩,
      ⟨0x10028, 0x10029, 0x10038⟩, ⟨0x10030, 0x10031, 0x10038⟩] := by decide +kernel

/-- The theorem about reachability applies to two heap blocks, one pointed to from the first page. -/
example (read : Nat → Option Nat) (dbg : Bool) :
    ∃ L, leakScan (Env.ofMem (demo (fun _ => true) read)
        [⟨0x11000, 16, false⟩, ⟨0x11020, 8, false⟩] [(3, 0x11000)] 0 (fun _ _ => false)
        (fun _ _ _ => false) dbg) = some L ∧
      (MemReach (demo (fun _ => true) read) (demoFacts fun _ => true)
        [⟨0x11000, 16, false⟩, ⟨0x11020, 8, false⟩] [(3, 0x11000)] ⟨0x11020, 8, false⟩ ↔
        ∃ r ∈ L, r.base = 0x11020 ∧ r.reach = true) :=
  C28_memory (demo_ok _ _) (demo_exact _ _) (by
    intro c hc
    simp only [List.mem_cons, List.not_mem_nil, or_false] at hc
    rcases hc with rfl | rfl <;> refine ⟨by decide, by decide, by decide, by decide, ?_⟩ <;>
      intro a ha <;> simp only [Chunk.Covers, Chunk.stop] at ha <;>
      simp only [demoFacts, decide_eq_true_iff] <;> omega) (by decide) (by simp)
    (by simp) rfl

end Verif.Leak
