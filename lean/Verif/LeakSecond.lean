import Verif.LeakForest

/-! # The leak scan: the secondary scan -/
namespace Verif.Leak
open Verif

theorem F.congr {E : Env} {a b : St} {ρ δ : Nat → Nat} (h : F E a ρ δ)
    (hr : ∀ x, (b.fl x).reach = (a.fl x).reach) (hi : ∀ x, (b.fl x).ind = (a.fl x).ind)
    (hb : ∀ x, (b.ue x).bytes = (a.ue x).bytes)
    (hu : ∀ c, U E a c → (b.ue c.base).parent = (a.ue c.base).parent ∨
      ((a.fl c.base).ind = false ∧ (b.ue c.base).parent = some c.base)) : F E b ρ δ := by
  have hU : ∀ c, U E b c ↔ U E a c := by intro c; unfold U; rw [hr]
  have hc : claimed E b = claimed E a := by unfold claimed; simp only [hi]
  have hg : ∀ r, grp b ρ r = grp a ρ r := by intro r; funext x; unfold grp; rw [hr]
  refine ⟨?_, ?_, ?_, ?_, ?_, ?_⟩
  · intro c h1
    obtain ⟨r, h2, h3, h4⟩ := h.rt c ((hU c).1 h1)
    exact ⟨r, (hU r).2 h2, h3, by rw [hi]; exact h4⟩
  · intro c h1 h2
    rw [hi] at h2
    obtain ⟨h3, h4, h5⟩ := h.root c ((hU c).1 h1) h2
    refine ⟨h3, h4, ?_⟩
    rcases hu c ((hU c).1 h1) with h6 | h6
    · rw [h6]; exact h5
    · exact .inr h6.2
  · intro c h1 h2
    rw [hi] at h2
    obtain ⟨p, h3, h4, h5⟩ := h.kid c ((hU c).1 h1) h2
    refine ⟨p, (hU p).2 h3, ?_, h5⟩
    rcases hu c ((hU c).1 h1) with h6 | h6
    · rw [h6]; exact h4
    · rw [h6.1] at h2; cases h2
  · intro c h1
    rw [hc]; exact h.dep c ((hU c).1 h1)
  · intro c h1 h2
    rw [hi] at h2
    rw [hb, hg]; exact h.bytes c ((hU c).1 h1) h2
  · intro c h1 r hr he
    exact (h.path c ((hU c).1 h1) r hr he).mono fun d hd => ⟨(hU d).2 hd.1, hd.2⟩

/-- Only the owner function matters for `SR.own`. -/
theorem own_of_F {E : Env} {a b : St} {ρ δ ρ' δ' : Nat → Nat} (ha : F E a ρ δ) (hb : F E b ρ' δ')
    (hr : ∀ x, (b.fl x).reach = (a.fl x).reach)
    (he : ∀ u, U E a u → ρ' u.base = ρ u.base ∨ (b.fl (ρ u.base)).ind = true) :
    ∀ u c, U E a u → climb a.ue (E.chunks.length + 1) u.base = some c →
    (b.fl c).ind = true ∨ climb b.ue (E.chunks.length + 1) u.base = some c := by
  intro u c hu hc
  have hub : U E b u := by unfold U; rw [hr]; exact hu
  rw [ha.climb_full hu] at hc
  obtain rfl := Option.some.inj hc
  rw [hb.climb_full hub]
  rcases he u hu with h1 | h1
  · right; rw [h1]
  · exact .inl h1

theorem S.of_claim {E : Env} (h : WF E) {st : St} (hs : S E st) {u r k : Chunk} {ρ δ : Nat → Nat}
    (hf : F E st ρ δ)
    (hu : U E st u) (hr : U E st r) (hrt : ρ u.base = r.base) (hri : (st.fl r.base).ind = false)
    (hk : U E st k) (hki : (st.fl k.base).ind = false) (hne : r.base ≠ k.base) {w : Word}
    (hsc : Looked E u) (hw : w ∈ E.words u.base u.stop) (hh : Head E w k) :
    S E (claim st r.base k.base k.size) ∧ SR E st (claim st r.base k.base k.size) := by
  have hf' := hf.claim h hu hr hrt hri hk hki hne hsc hw hh
  refine ⟨⟨⟨_, _, hf'⟩, ?_, ?_, ?_, ?_, ?_, hs.ok⟩, ?_⟩
  · intro c hc; rw [claim_reach]; exact hs.rs c hc
  · intro c hc hi
    rw [claim_reach]
    by_cases hck : c.base = k.base
    · rw [hck]; exact hk.2
    · rw [claim_ind _ _ _ _ hck] at hi; exact hs.ir c hc hi
  · intro c hc; rw [claim_maybe]; exact hs.ms c hc
  · intro c hc; rw [claim_maybe]; exact hs.mr c hc
  · intro x hx
    obtain ⟨c, h1, h2, h3⟩ := hs.mq x hx
    exact ⟨c, h1, h2, by rw [claim_maybe]; exact h3⟩
  · refine ⟨fun x => claim_reach _ _ _ _ _, ?_, ?_, fun _ hx => hx, ?_, ?_, ?_⟩
    · intro x hx; rw [claim_maybe]; exact hx
    · intro x hx
      by_cases hxk : x = k.base
      · rw [hxk]; exact claim_ind_self _ _ _ _
      · rw [claim_ind _ _ _ _ hxk]; exact hx
    · intro c _ hx; rw [claim_maybe] at hx; exact .inl hx
    · refine Nat.le_of_eq ?_
      unfold left
      simp only [claim_maybe]
      rfl
    · refine own_of_F hf hf' (fun x => claim_reach _ _ _ _ _) ?_
      intro v hv
      by_cases hvk : ρ v.base = k.base
      · right; rw [hvk]; exact claim_ind_self _ _ _ _
      · left; rw [if_neg hvk]

theorem secondary_step {E : Env} (h : WF E) {t : RB.Tree} (ht : TreeOk E t) {st : St} (hs : S E st)
    {u : Chunk} (hu : U E st u) (hsc : Looked E u) {w : Word}
    (hw : w ∈ E.words u.base u.stop) :
    ∃ st', checkPointer E t false st w = some st' ∧ S E st' ∧ SR E st st' ∧ SD E u st' w := by
  rcases checkPointer_cases h ht false st w with ⟨c, hc, e⟩ | ⟨c, hc, e⟩ | ⟨hno, e⟩
  · have hcm := hc.1.1
    have only : ∀ d, Head E w d → d = c := fun d hd => h.uniq hd.1.1 hcm (hd.cov h) (hc.cov h)
    have sd : ∀ st', ((st'.fl c.base).reach = true ∨ (st'.fl c.base).ind = true ∨
        climb st'.ue (E.chunks.length + 1) u.base = some c.base) → SD E u st' w := by
      intro st' hh d _
      exact ⟨fun hd => by rw [only d hd]; exact hh, fun hd => absurd hd (hc.not_mid h)⟩
    rw [e]
    unfold reached
    rw [if_neg (by simp)]
    unfold markIndirect
    by_cases hr : (st.fl c.base).reach = true
    · rw [if_pos hr]
      exact ⟨st, rfl, hs, SR.refl _, sd st (.inl hr)⟩
    rw [if_neg hr, ht.some hu.1 (h.inside u hu.1 w hw)]
    dsimp only
    have hk : U E st c := ⟨hcm, by simpa using hr⟩
    obtain ⟨ρ, δ, hf⟩ := hs.forest
    by_cases hi : (st.fl c.base).ind = true
    · rw [if_pos hi]
      obtain ⟨p, -, hp, -⟩ := hf.kid c hk hi
      have : ({ st with bad := st.bad || (st.ue c.base).parent.isNone } : St) = st := by
        rw [hp, hs.ok, ← hs.ok]
        simp
      rw [this]
      exact ⟨st, rfl, hs, SR.refl _, sd st (.inr (.inl hi))⟩
    rw [if_neg hi, hf.climb_full hu]
    obtain ⟨r, hr1, hr2, hr3⟩ := hf.rt u hu
    rw [hr2]
    simp only [Option.map_some]
    have hsz : c.stop - c.base = c.size := by unfold Chunk.stop; omega
    by_cases hne : r.base = c.base
    · rw [if_neg (by simpa using hne)]
      obtain ⟨k1, k2, k3⟩ := hf.root c hk (by simpa using hi)
      have hue : ∀ x, (upd st.ue c.base ⟨(st.ue c.base).bytes, some r.base⟩ x).bytes =
          (st.ue x).bytes := by
        intro x
        by_cases hx : x = c.base
        · simp only [hx, upd_same]
        · simp only [upd_ne _ _ hx]
      have hf' : F E { st with ue := upd st.ue c.base ⟨(st.ue c.base).bytes, some r.base⟩ } ρ δ := by
        refine hf.congr (fun _ => rfl) (fun _ => rfl) hue ?_
        intro d hd
        by_cases hx : d.base = c.base
        · right
          refine ⟨by rw [hx]; simpa using hi, ?_⟩
          simp only [hx, upd_same, hne]
        · left; simp only [upd_ne _ _ hx]
      refine ⟨_, rfl, ⟨⟨ρ, δ, hf'⟩, hs.rs, hs.ir, hs.ms, hs.mr, hs.mq, hs.ok⟩, ?_, sd _ (.inr (.inr ?_))⟩
      · exact ⟨fun _ => rfl, fun _ h => h, fun _ h => h, fun _ h => h, fun _ _ h => .inl h,
          Nat.le_refl _, own_of_F hf hf' (fun _ => rfl) (fun _ _ => .inl rfl)⟩
      · rw [hf'.climb_full hu, hr2, hne]
    · rw [if_pos (by simpa using hne), hsz]
      have := hs.of_claim h hf hu hr1 hr2 hr3 hk (by simpa using hi) hne hsc hw hc
      exact ⟨_, rfl, this.1, this.2, sd _ (.inr (.inl (claim_ind_self _ _ _ _)))⟩
  · have hcm := hc.1.1
    have only : ∀ d, Mid E w d → d = c := fun d hd => h.uniq hd.1.1 hcm hd.cov hc.cov
    have sd : ∀ st', ((st'.fl c.base).reach = true ∨ (st'.fl c.base).maybe = true ∨
        (st'.fl c.base).ind = true) → SD E u st' w := by
      intro st' hh d _
      exact ⟨fun hd => absurd hc (hd.not_mid h), fun hd => by rw [only d hd]; exact hh⟩
    rw [e]
    unfold maybeReached
    by_cases hr : (st.fl c.base).maybe = true ∨ (st.fl c.base).reach = true ∨ (st.fl c.base).ind = true
    · rw [if_pos hr]
      refine ⟨st, rfl, hs, SR.refl _, sd st ?_⟩
      rcases hr with hr | hr | hr
      · exact .inr (.inl hr)
      · exact .inl hr
      · exact .inr (.inr hr)
    · rw [if_neg hr]
      have hm0 : (st.fl c.base).maybe = false := by
        cases hm : (st.fl c.base).maybe
        · rfl
        · exact absurd (.inl hm) hr
      have hleft := countP_flip h hcm (f := fun b => !(st.fl b).maybe)
            (g := fun b => !(upd st.fl c.base ⟨(st.fl c.base).reach, true, (st.fl c.base).ind⟩ b).maybe)
            (by simp [hm0]) (by simp [upd_same]) (by intro b hb; simp only [upd_ne _ _ hb])
      have hreach : ∀ b, (upd st.fl c.base ⟨(st.fl c.base).reach, true, (st.fl c.base).ind⟩ b).reach =
          (st.fl b).reach := by
        intro b
        by_cases hdc : b = c.base
        · simp only [hdc, upd_same]
        · simp only [upd_ne _ _ hdc]
      have hind : ∀ b, (upd st.fl c.base ⟨(st.fl c.base).reach, true, (st.fl c.base).ind⟩ b).ind =
          (st.fl b).ind := by
        intro b
        by_cases hdc : b = c.base
        · simp only [hdc, upd_same]
        · simp only [upd_ne _ _ hdc]
      have hmono : ∀ b, (st.fl b).maybe = true →
          (upd st.fl c.base ⟨(st.fl c.base).reach, true, (st.fl c.base).ind⟩ b).maybe = true := by
        intro b hb
        by_cases hdc : b = c.base
        · simp only [hdc, upd_same]
        · simp only [upd_ne _ _ hdc]; exact hb
      obtain ⟨ρ, δ, hf⟩ := hs.forest
      have hf' : F E { st with
          fl := upd st.fl c.base ⟨(st.fl c.base).reach, true, (st.fl c.base).ind⟩
          mq := st.mq ++ [(c.base, c.stop)] } ρ δ :=
        hf.congr hreach hind (fun _ => rfl) (fun _ _ => .inl rfl)
      refine ⟨_, rfl, ⟨⟨ρ, δ, hf'⟩, ?_, ?_, ?_, ?_, ?_, hs.ok⟩, ?_, sd _ (.inr (.inl ?_))⟩
      · intro d hd; rw [hreach]; exact hs.rs d hd
      · intro d hd hh
        rw [hind] at hh
        rw [hreach]; exact hs.ir d hd hh
      · intro d hd hh
        by_cases hdc : d.base = c.base
        · rw [h.inj hd hcm hdc]
          exact ⟨w, hc, .inr ⟨u, hu.1, hw⟩⟩
        · simp only [upd_ne _ _ hdc] at hh
          exact hs.ms d hd hh
      · intro d hd hh
        exact (hs.mr d hd hh).imp id (hmono _)
      · intro x hx
        rcases List.mem_append.1 hx with hx | hx
        · obtain ⟨d, hd, e1, e2⟩ := hs.mq x hx
          exact ⟨d, hd, e1, hmono _ e2⟩
        · refine ⟨c, hcm, List.mem_singleton.1 hx, ?_⟩
          simp only [upd_same]
      · refine ⟨hreach, hmono, ?_, ?_, ?_, ?_, own_of_F hf hf' hreach (fun _ _ => .inl rfl)⟩
        · intro x hx; rw [hind]; exact hx
        · intro x hx; exact List.mem_append_left _ hx
        · intro d hd hh
          by_cases hdc : d.base = c.base
          · right; rw [h.inj hd hcm hdc]; simp
          · simp only [upd_ne _ _ hdc] at hh; exact .inl hh
        · unfold left
          simp only [List.length_append, List.length_cons, List.length_nil]
          omega
      · simp only [upd_same]
  · rw [e]
    exact ⟨st, rfl, hs, SR.refl _, fun d _ => ⟨fun hd => absurd hd (hno d).1,
      fun hd => absurd hd (hno d).2⟩⟩

/-- The words of an unreachable chunk. -/
theorem secondary_words {E : Env} (h : WF E) {t : RB.Tree} (ht : TreeOk E t) {st : St} (hs : S E st)
    {u : Chunk} (hu : U E st u) (hsc : Looked E u) :
    ∃ st', (E.words u.base u.stop).foldlM (checkPointer E t false) st = some st' ∧ S E st' ∧
      SR E st st' ∧ ∀ w ∈ E.words u.base u.stop, SD E u st' w := by
  obtain ⟨s', h1, h2, h3, h4⟩ := foldlM_inv (f := checkPointer E t false)
    (I := fun s => S E s ∧ U E s u) (R := SR E) (D := SD E u)
    SR.refl (fun _ _ _ => SR.trans) (fun _ _ _ hab ha _ k => SD.mono hab ha.2 k)
    (E.words u.base u.stop) (fun s w hI hw => by
      obtain ⟨s1, h1, h2, h3, h4⟩ := secondary_step h ht hI.1 hI.2 hsc hw
      exact ⟨s1, h1, ⟨h2, (h3.U u).2 hI.2⟩, h3, h4⟩) st ⟨hs, hu⟩
  exact ⟨s', h1, h2.1, h3, h4⟩

/-- All words of the chunk have been dealt with. -/
def Scanned (E : Env) (st : St) (u : Chunk) : Prop := ∀ w ∈ E.words u.base u.stop, SD E u st w

/-- What is known of a chunk while the queue of possible leaks is walked. -/
def Todo (E : Env) (st : St) (c : Chunk) : Prop :=
  (st.fl c.base).reach = true ∨ (c.ignore = true ∧ (st.fl c.base).maybe = false) ∨
  ((st.fl c.base).maybe = true ∧ ((c.base, c.stop) ∈ st.mq ∨ (st.fl c.base).ind = true)) ∨
  Scanned E st c

theorem Todo.mono {E : Env} {a b : St} (h : SR E a b) {c : Chunk} (hc : c ∈ E.chunks)
    (k : Todo E a c) : Todo E b c := by
  unfold Todo
  rw [h.r]
  cases hr : (a.fl c.base).reach with
  | true => exact .inl rfl
  | false =>
    right
    rcases k with k | ⟨k1, k2⟩ | ⟨k1, k2⟩ | k
    · rw [hr] at k; cases k
    · cases hb : (b.fl c.base).maybe with
      | false => exact .inl ⟨k1, rfl⟩
      | true =>
        rcases h.new c hc hb with h1 | h1
        · rw [k2] at h1; cases h1
        · exact .inr (.inl ⟨rfl, .inl h1⟩)
    · exact .inr (.inl ⟨h.m _ k1, k2.imp (h.q _) (h.i _)⟩)
    · exact .inr (.inr fun w hw => SD.mono h ⟨hc, hr⟩ (k w hw))

theorem identify_spec {E : Env} (h : WF E) {t : RB.Tree} (ht : TreeOk E t) {st : St} (hs : S E st)
    (hq : ∀ c ∈ E.chunks, (st.fl c.base).maybe = true → (c.base, c.stop) ∈ st.mq) :
    ∃ st', E.chunks.foldlM (identify E t) st = some st' ∧ S E st' ∧ SR E st st' ∧
      ∀ c ∈ E.chunks, Todo E st' c := by
  obtain ⟨s', h1, h2, h3, h4⟩ := foldlM_inv (f := identify E t)
    (I := fun s => S E s ∧ ∀ c ∈ E.chunks, (s.fl c.base).maybe = true → (c.base, c.stop) ∈ s.mq)
    (R := SR E) (D := fun s c => c ∈ E.chunks → Todo E s c)
    SR.refl (fun _ _ _ => SR.trans) (fun _ _ _ hab _ _ k hc => (k hc).mono hab hc)
    E.chunks (fun s c hI hc => by
      unfold identify
      by_cases hg : c.ignore = true ∨ (s.fl c.base).reach = true ∨ (s.fl c.base).maybe = true
      · rw [if_pos hg]
        refine ⟨s, rfl, hI, SR.refl _, fun _ => ?_⟩
        cases hr : (s.fl c.base).reach with
        | true => exact .inl hr
        | false =>
          cases hm : (s.fl c.base).maybe with
          | true => exact .inr (.inr (.inl ⟨hm, .inl (hI.2 c hc hm)⟩))
          | false =>
            rw [hr, hm] at hg
            exact .inr (.inl ⟨by simpa using hg, hm⟩)
      · rw [if_neg hg]
        have hu : U E s c := ⟨hc, by
          cases hr : (s.fl c.base).reach
          · rfl
          · exact absurd (.inr (.inl hr)) hg⟩
        obtain ⟨s1, e1, i1, r1, d1⟩ := secondary_words h ht hI.1 hu (.inl (by
          cases hi : c.ignore
          · rfl
          · exact absurd (.inl hi) hg))
        refine ⟨s1, e1, ⟨i1, ?_⟩, r1, fun _ => .inr (.inr (.inr d1))⟩
        intro d hd hm
        rcases r1.new d hd hm with h5 | h5
        · exact r1.q _ (hI.2 d hd h5)
        · exact h5) st ⟨hs, hq⟩
  exact ⟨s', h1, h2.1, h3, fun c hc => h4 c hc hc⟩

theorem walkMaybe_spec {E : Env} (h : WF E) {t : RB.Tree} (ht : TreeOk E t) : ∀ (n : Nat) (st : St),
    S E st → (∀ c ∈ E.chunks, Todo E st c) → left E Fl.maybe st + st.mq.length < n →
    ∃ st', walkMaybe E t n st = some st' ∧ S E st' ∧ (∀ c ∈ E.chunks, Todo E st' c) ∧
      st'.mq = [] := by
  intro n
  induction n with
  | zero => intro st _ _ hn; omega
  | succ n ih =>
    intro st hs hq hn
    unfold walkMaybe
    cases hmq : st.mq with
    | nil => exact ⟨st, rfl, hs, hq, hmq⟩
    | cons x q =>
      obtain ⟨s, e⟩ := x
      dsimp only
      obtain ⟨c, hc, hce, hcm⟩ := hs.mq (s, e) (by rw [hmq]; exact List.mem_cons_self)
      obtain ⟨rfl, rfl⟩ := Prod.mk.inj hce
      rw [hmq] at hn
      simp only [List.length_cons] at hn
      obtain ⟨ρ, δ, hf⟩ := hs.forest
      have hs0 : S E { st with mq := q } :=
        ⟨⟨ρ, δ, hf.congr (fun _ => rfl) (fun _ => rfl) (fun _ => rfl) (fun _ _ => .inl rfl)⟩,
          hs.rs, hs.ir, hs.ms, hs.mr,
          fun x hx => hs.mq x (by rw [hmq]; exact List.mem_cons_of_mem _ hx), hs.ok⟩
      have hrest : ∀ d ∈ E.chunks, d ≠ c → Todo E { st with mq := q } d := by
        intro d hd hdc
        rcases hq d hd with k | k | ⟨k1, k2⟩ | k
        · exact .inl k
        · exact .inr (.inl k)
        · refine .inr (.inr (.inl ⟨k1, k2.imp ?_ id⟩))
          intro hm
          rw [hmq] at hm
          rcases List.mem_cons.1 hm with h1 | h1
          · exact absurd (h.inj hd hc (Prod.mk.inj h1).1) hdc
          · exact h1
        · exact .inr (.inr (.inr k))
      by_cases hg : (st.fl c.base).reach = true ∨ (st.fl c.base).ind = true
      · rw [if_pos hg]
        refine ih { st with mq := q } hs0 ?_ (by
          show left E Fl.maybe st + q.length < n
          omega)
        intro d hd
        by_cases hdc : d = c
        · rw [hdc]
          rcases hg with hg | hg
          · exact .inl hg
          · exact .inr (.inr (.inl ⟨hcm, .inr hg⟩))
        · exact hrest d hd hdc
      · rw [if_neg hg]
        have hu : U E { st with mq := q } c := ⟨hc, by
          cases hr : (st.fl c.base).reach
          · rfl
          · exact absurd (.inl hr) hg⟩
        obtain ⟨s1, e1, i1, r1, d1⟩ := secondary_words h ht hs0 hu (.inr (hs.ms c hc hcm))
        rw [e1, Option.bind_some]
        refine ih s1 i1 ?_ (by
          have h1 := r1.fuel
          have h2 : left E Fl.maybe { st with mq := q } = left E Fl.maybe st := rfl
          rw [h2] at h1
          dsimp only at h1
          omega)
        intro d hd
        by_cases hdc : d = c
        · rw [hdc]; exact .inr (.inr (.inr d1))
        · exact (hrest d hd hdc).mono r1 hd

/-- The forest at the start of the secondary scan: every chunk on its own. -/
theorem F_start {E : Env} (h : WF E) {st : St} (hi : ∀ b, (st.fl b).ind = false)
    (hu : st.ue = fun _ => ⟨0, none⟩) : F E st id (fun _ => 0) := by
  refine ⟨?_, ?_, ?_, ?_, ?_, ?_⟩
  · intro c hc; exact ⟨c, hc, rfl, hi _⟩
  · intro c _ _; rw [hu]; exact ⟨rfl, rfl, .inl rfl⟩
  · intro c _ h1; rw [hi] at h1; cases h1
  · intro c _; exact Nat.zero_le _
  · intro c hc _
    rw [hu]
    have key : ∀ l : List Chunk, l.Pairwise (fun a b => a.stop ≤ b.base ∨ b.stop ≤ a.base) →
        (∀ x ∈ l, 0 < x.size) → (∀ x ∈ l, x ∈ E.chunks) →
        (l.map fun x => if grp st id c.base x.base then x.size else 0).sum =
          if c ∈ l then c.size else 0 := by
      intro l
      induction l with
      | nil => intro _ _ _; rfl
      | cons z l ih =>
        intro hp hz hm
        rw [List.pairwise_cons] at hp
        rw [List.map_cons, List.sum_cons, ih hp.2 (fun x hx => hz x (List.mem_cons_of_mem _ hx))
          fun x hx => hm x (List.mem_cons_of_mem _ hx)]
        by_cases hzc : z = c
        · have hno : c ∉ l := by
            intro hcl
            have h1 := hp.1 c hcl
            have h2 := hz z List.mem_cons_self
            rw [hzc] at h1 h2
            unfold Chunk.stop at h1
            omega
          have hg : grp st id c.base c.base = true := by unfold grp; rw [hc.2]; simp
          rw [hzc, if_neg hno, if_pos hg,
            if_pos (show c ∈ c :: l from List.mem_cons_self)]
          rfl
        · have hg : c ∈ z :: l ↔ c ∈ l := by
            rw [List.mem_cons]
            exact ⟨fun h => h.resolve_left fun e => hzc e.symm, .inr⟩
          simp only [hg]
          by_cases hzb : z.base = c.base
          · exact absurd (h.inj (hm z List.mem_cons_self) hc.1 hzb) hzc
          · have : grp st id c.base z.base = false := by unfold grp; simp [hzb]
            rw [this]; simp
    have := key E.chunks h.apart h.pos fun _ hx => hx
    rw [if_pos hc.1] at this
    unfold tot
    rw [this]
    simp
  · intro c hc r hr he
    rw [h.inj hr hc.1 he.symm]
    exact .refl hc.1 ⟨hc, rfl⟩

/-- The outcome of the marking phases. -/
theorem marks_spec {E : Env} (h : WF E) :
    ∃ st, marks E = some st ∧ S E st ∧ ∀ c ∈ E.chunks,
      (st.fl c.base).reach = true ∨ (c.ignore = true ∧ (st.fl c.base).maybe = false) ∨
      ((st.fl c.base).maybe = true ∧ (st.fl c.base).ind = true) ∨ Scanned E st c := by
  obtain ⟨t, e0, ht⟩ := h.build
  obtain ⟨s1, e1, p1, -, r1, m1⟩ := primary_spec h ht
  have hs1 : S E s1 := by
    refine ⟨⟨_, _, F_start h p1.ni p1.ue⟩, r1, ?_, ?_, m1, p1.mq, p1.ok⟩
    · intro c _ hi; rw [p1.ni] at hi; cases hi
    · intro c hc hm
      obtain ⟨w, hw, h1⟩ := (p1.ms c hc hm).1
      exact ⟨w, hw, h1.imp id fun ⟨d, hd, hwd⟩ => ⟨d, hd.mem, hwd⟩⟩
  obtain ⟨s2, e2, i2, r2, t2⟩ := identify_spec h ht hs1 (fun c hc hm => (p1.ms c hc hm).2)
  obtain ⟨s3, e3, i3, t3, z3⟩ := walkMaybe_spec h ht (E.chunks.length + 1) s2 i2 t2 (by
    have h1 := r2.fuel
    have h2 := p1.mc
    omega)
  refine ⟨s3, ?_, i3, ?_⟩
  · unfold marks
    rw [e0, Option.bind_some]
    dsimp only
    rw [show ({ St.init with bad := false } : St) = St.init from rfl, e1, Option.bind_some]
    unfold secondary
    rw [e2, Option.bind_some, e3]
  · intro c hc
    rcases t3 c hc with k | k | ⟨k1, k2⟩ | k
    · exact .inl k
    · exact .inr (.inl k)
    · rw [z3] at k2
      exact .inr (.inr (.inl ⟨k1, k2.resolve_left (by simp)⟩))
    · exact .inr (.inr (.inr k))

end Verif.Leak
