import Verif.LeakProps

/-! # The leak scan: the groups formed by the secondary scan -/
namespace Verif.Leak
open Verif

/-- Some word of a root or of a chunk points into the middle of the chunk. -/
def Touched (E : Env) (c : Chunk) : Prop :=
  ∃ w, Mid E w c ∧ (w ∈ E.roots ∨ ∃ d ∈ E.chunks, w ∈ E.words d.base d.stop)

/-- The scan looks into the chunk if it is unreachable. -/
def Looked (E : Env) (c : Chunk) : Prop := c.ignore = false ∨ Touched E c

/-- Chunk `d` holds a head pointer to chunk `c`. -/
def Points (E : Env) (d c : Chunk) : Prop := ∃ w ∈ E.words d.base d.stop, Head E w c

/-- A chain of head pointers through chunks with the property. -/
inductive Chain (E : Env) (G : Chunk → Prop) : Chunk → Chunk → Prop
  | refl {c : Chunk} : c ∈ E.chunks → G c → Chain E G c c
  | step {r d c : Chunk} : Chain E G r d → Looked E d → Points E d c → G c → Chain E G r c

theorem Chain.mono {E : Env} {G H : Chunk → Prop} {a b : Chunk} (h : Chain E G a b)
    (hg : ∀ c, G c → H c) : Chain E H a b := by
  induction h with
  | refl h1 h2 => exact .refl h1 (hg _ h2)
  | step _ h1 h2 h3 ih => exact .step ih h1 h2 (hg _ h3)

theorem Chain.trans {E : Env} {G : Chunk → Prop} {a b c : Chunk} (h : Chain E G a b)
    (k : Chain E G b c) : Chain E G a c := by
  induction k with
  | refl _ => exact h
  | step _ h1 h2 h3 ih => exact .step ih h1 h2 h3

theorem Chain.last {E : Env} {G : Chunk → Prop} {a b : Chunk} (h : Chain E G a b) : G b := by
  cases h with
  | refl _ h => exact h
  | step _ _ _ h => exact h

/-- Sum of the sizes of the chunks with a property of their base. -/
def tot (E : Env) (p : Nat → Bool) : Nat :=
  (E.chunks.map fun c => if p c.base then c.size else 0).sum

theorem tot_add (E : Env) (p q r : Nat → Bool)
    (h : ∀ c ∈ E.chunks, (r c.base = (p c.base || q c.base)) ∧ (p c.base && q c.base) = false) :
    tot E r = tot E p + tot E q := by
  unfold tot
  have key : ∀ l : List Chunk,
      (∀ c ∈ l, (r c.base = (p c.base || q c.base)) ∧ (p c.base && q c.base) = false) →
      (l.map fun c => if r c.base then c.size else 0).sum =
        (l.map fun c => if p c.base then c.size else 0).sum +
        (l.map fun c => if q c.base then c.size else 0).sum := by
    intro l
    induction l with
    | nil => intro _; rfl
    | cons z l ih =>
      intro hl
      simp only [List.map_cons, List.sum_cons]
      rw [ih fun c hc => hl c (List.mem_cons_of_mem _ hc)]
      obtain ⟨h1, h2⟩ := hl z List.mem_cons_self
      rw [h1]
      cases hp : p z.base <;> cases hq : q z.base <;> simp [hp, hq] at h2 ⊢ <;> omega
  exact key _ h

theorem tot_congr (E : Env) (p q : Nat → Bool) (h : ∀ c ∈ E.chunks, p c.base = q c.base) :
    tot E p = tot E q := by
  unfold tot
  congr 1
  apply List.map_congr_left
  intro c hc
  rw [h c hc]

/-- An unreachable chunk. -/
def U (E : Env) (st : St) (c : Chunk) : Prop := c ∈ E.chunks ∧ (st.fl c.base).reach = false

/-- The chunks without the flag belonging to the owner. -/
def grp (st : St) (ρ : Nat → Nat) (r : Nat) (b : Nat) : Bool :=
  !(st.fl b).reach && ρ b == r

/-- Chunks claimed so far. -/
def claimed (E : Env) (st : St) : Nat := E.chunks.countP fun c => (st.fl c.base).ind

/-- The parent links form a forest with owners `ρ` and depths `δ`. -/
structure F (E : Env) (st : St) (ρ δ : Nat → Nat) : Prop where
  rt : ∀ c, U E st c → ∃ r, U E st r ∧ ρ c.base = r.base ∧ (st.fl r.base).ind = false
  root : ∀ c, U E st c → (st.fl c.base).ind = false →
    ρ c.base = c.base ∧ δ c.base = 0 ∧
      ((st.ue c.base).parent = none ∨ (st.ue c.base).parent = some c.base)
  kid : ∀ c, U E st c → (st.fl c.base).ind = true → ∃ p, U E st p ∧
    (st.ue c.base).parent = some p.base ∧ p.base ≠ c.base ∧ ρ c.base = ρ p.base ∧
      δ c.base = δ p.base + 1
  dep : ∀ c, U E st c → δ c.base ≤ claimed E st
  bytes : ∀ c, U E st c → (st.fl c.base).ind = false →
    (st.ue c.base).bytes + c.size = tot E (grp st ρ c.base)
  path : ∀ c, U E st c → ∀ r ∈ E.chunks, ρ c.base = r.base →
    Chain E (fun d => U E st d ∧ ρ d.base = r.base) r c

theorem F.climb {E : Env} {st : St} {ρ δ : Nat → Nat} (h : F E st ρ δ) : ∀ (n : Nat) (c : Chunk),
    U E st c → δ c.base < n → climb st.ue n c.base = some (ρ c.base) := by
  intro n
  induction n with
  | zero => intro c _ hn; omega
  | succ n ih =>
    intro c hc hn
    unfold Leak.climb
    cases hi : (st.fl c.base).ind with
    | false =>
      obtain ⟨h1, -, h2 | h2⟩ := h.root c hc hi
      · rw [h2]; dsimp only; rw [h1]
      · rw [h2]; dsimp only; rw [if_pos rfl, h1]
    | true =>
      obtain ⟨p, hp, h1, h2, h3, h4⟩ := h.kid c hc hi
      rw [h1]
      dsimp only
      rw [if_neg h2, h3]
      exact ih p hp (by omega)

theorem F.climb_full {E : Env} {st : St} {ρ δ : Nat → Nat} (h : F E st ρ δ) {c : Chunk}
    (hc : U E st c) : Leak.climb st.ue (E.chunks.length + 1) c.base = some (ρ c.base) := by
  refine h.climb _ c hc ?_
  have h1 := h.dep c hc
  have h2 : claimed E st ≤ E.chunks.length := List.countP_le_length
  omega

/-- The state after a claim of `k` by `t`. -/
def claim (st : St) (t k n : Nat) : St :=
  { st with
    ue := upd (upd st.ue t ⟨(st.ue t).bytes + ((st.ue k).bytes + n), (st.ue t).parent⟩) k
      ⟨(st.ue k).bytes, some t⟩
    fl := upd st.fl k ⟨(st.fl k).reach, (st.fl k).maybe, true⟩ }

theorem claim_reach (st : St) (t k n b : Nat) :
    ((claim st t k n).fl b).reach = (st.fl b).reach := by
  by_cases h : b = k
  · simp only [claim, h, upd_same]
  · simp only [claim, upd_ne _ _ h]

theorem claim_maybe (st : St) (t k n b : Nat) :
    ((claim st t k n).fl b).maybe = (st.fl b).maybe := by
  by_cases h : b = k
  · simp only [claim, h, upd_same]
  · simp only [claim, upd_ne _ _ h]

theorem claim_ind (st : St) (t k n : Nat) {b : Nat} (h : b ≠ k) :
    ((claim st t k n).fl b).ind = (st.fl b).ind := by
  simp only [claim, upd_ne _ _ h]

theorem claim_ind_self (st : St) (t k n : Nat) : ((claim st t k n).fl k).ind = true := by
  simp only [claim, upd_same]

theorem claim_parent (st : St) (t k n : Nat) {b : Nat} (h : b ≠ k) :
    ((claim st t k n).ue b).parent = (st.ue b).parent := by
  simp only [claim, upd_ne _ _ h]
  by_cases ht : b = t
  · simp only [ht, upd_same]
  · simp only [upd_ne _ _ ht]

theorem claim_parent_self (st : St) (t k n : Nat) :
    ((claim st t k n).ue k).parent = some t := by
  simp only [claim, upd_same]

theorem claim_bytes_top (st : St) {t k : Nat} (n : Nat) (h : t ≠ k) :
    ((claim st t k n).ue t).bytes = (st.ue t).bytes + ((st.ue k).bytes + n) := by
  simp only [claim, upd_ne _ _ h, upd_same]

theorem claim_bytes (st : St) {t k b : Nat} (n : Nat) (h : b ≠ k) (ht : b ≠ t) :
    ((claim st t k n).ue b).bytes = (st.ue b).bytes := by
  simp only [claim, upd_ne _ _ h, upd_ne _ _ ht]

theorem F.claim {E : Env} (h : WF E) {st : St} {ρ δ : Nat → Nat} (hf : F E st ρ δ) {u r k : Chunk}
    (hu : U E st u) (hr : U E st r) (hrt : ρ u.base = r.base) (hri : (st.fl r.base).ind = false)
    (hk : U E st k) (hki : (st.fl k.base).ind = false) (hne : r.base ≠ k.base) {w : Word}
    (hsc : Looked E u) (hw : w ∈ E.words u.base u.stop) (hh : Head E w k) :
    F E (Leak.claim st r.base k.base k.size)
      (fun x => if ρ x = k.base then r.base else ρ x)
      (fun x => if ρ x = k.base then δ x + 1 else δ x) := by
  have hU : ∀ c, U E (Leak.claim st r.base k.base k.size) c ↔ U E st c := by
    intro c; unfold U; rw [claim_reach]
  obtain ⟨rr1, rr2, rr3⟩ := hf.root r hr hri
  obtain ⟨kk1, kk2, kk3⟩ := hf.root k hk hki
  have hcl : claimed E (Leak.claim st r.base k.base k.size) = claimed E st + 1 := by
    have := countP_flip h hk.1 (f := fun b => ((Leak.claim st r.base k.base k.size).fl b).ind)
      (g := fun b => (st.fl b).ind) (claim_ind_self _ _ _ _) hki
      (fun b hb => (claim_ind _ _ _ _ hb).symm)
    unfold claimed
    omega
  refine ⟨?_, ?_, ?_, ?_, ?_, ?_⟩
  · intro c hc
    rw [hU] at hc
    obtain ⟨r0, h1, h2, h3⟩ := hf.rt c hc
    by_cases hck : ρ c.base = k.base
    · rw [if_pos hck]
      exact ⟨r, (hU r).2 hr, rfl, by rw [claim_ind _ _ _ _ hne]; exact hri⟩
    · rw [if_neg hck]
      exact ⟨r0, (hU r0).2 h1, h2, by rw [claim_ind _ _ _ _ (by rw [← h2]; exact hck)]; exact h3⟩
  · intro c hc hi
    rw [hU] at hc
    have hck : c.base ≠ k.base := by
      intro e; rw [e, claim_ind_self] at hi; cases hi
    rw [claim_ind _ _ _ _ hck] at hi
    obtain ⟨h1, h2, h3⟩ := hf.root c hc hi
    rw [h1, if_neg hck, if_neg hck, claim_parent _ _ _ _ hck]
    exact ⟨rfl, h2, h3⟩
  · intro c hc hi
    rw [hU] at hc
    by_cases hck : c.base = k.base
    · refine ⟨r, (hU r).2 hr, ?_, ?_, ?_, ?_⟩
      · rw [hck, claim_parent_self]
      · rw [hck]; exact hne
      · rw [hck, if_pos kk1, rr1, if_neg hne]
      · rw [hck, if_pos kk1, rr1, if_neg hne, kk2, rr2]
    · rw [claim_ind _ _ _ _ hck] at hi
      obtain ⟨p, h1, h2, h3, h4, h5⟩ := hf.kid c hc hi
      refine ⟨p, (hU p).2 h1, ?_, h3, ?_, ?_⟩
      · rw [claim_parent _ _ _ _ hck]; exact h2
      · rw [h4]
      · rw [h4, h5]; split <;> rfl
  · intro c hc
    rw [hU] at hc
    have := hf.dep c hc
    rw [hcl]
    split <;> omega
  · intro c hc hi
    rw [hU] at hc
    have hck : c.base ≠ k.base := by
      intro e; rw [e, claim_ind_self] at hi; cases hi
    rw [claim_ind _ _ _ _ hck] at hi
    have hb := hf.bytes c hc hi
    by_cases hcr : c.base = r.base
    · have hkb := hf.bytes k hk hki
      have : tot E (grp (Leak.claim st r.base k.base k.size)
          (fun x => if ρ x = k.base then r.base else ρ x) c.base) =
          tot E (grp st ρ c.base) + tot E (grp st ρ k.base) := by
        apply tot_add
        intro d _
        unfold grp
        rw [claim_reach, hcr]
        cases (st.fl d.base).reach with
        | true => simp
        | false =>
          by_cases hd : ρ d.base = k.base
          · have : ¬ k.base = r.base := fun e => hne e.symm
            simp [hd, this]
          · simp [hd]
      rw [this, ← hb, ← hkb, hcr, claim_bytes_top _ _ hne]
      omega
    · rw [claim_bytes _ _ hck hcr, hb]
      apply tot_congr
      intro d _
      unfold grp
      rw [claim_reach]
      by_cases hd : ρ d.base = k.base
      · have h1 : (k.base == c.base) = false := by simpa using fun e => hck e.symm
        have h2 : (r.base == c.base) = false := by simpa using fun e => hcr e.symm
        simp only [hd, if_true, h1, h2]
      · simp [hd]
  · intro c hc r0 hr0 he
    rw [hU] at hc
    by_cases hck : ρ c.base = k.base
    · rw [if_pos hck] at he
      rw [h.inj hr0 hr.1 he.symm]
      have h1 := hf.path u hu r hr.1 hrt
      have h2 := hf.path c hc k hk.1 hck
      refine Chain.trans (b := k) (.step (h1.mono ?_) hsc ⟨w, hw, hh⟩ ?_) (h2.mono ?_)
      · rintro d ⟨d1, d2⟩
        exact ⟨(hU d).2 d1, by rw [d2, if_neg hne]⟩
      · exact ⟨(hU k).2 hk, by rw [if_pos kk1]⟩
      · rintro d ⟨d1, d2⟩
        exact ⟨(hU d).2 d1, by rw [if_pos d2]⟩
    · rw [if_neg hck] at he
      refine (hf.path c hc r0 hr0 he).mono ?_
      rintro d ⟨d1, d2⟩
      refine ⟨(hU d).2 d1, ?_⟩
      rw [if_neg (by rw [d2, ← he]; exact hck)]
      exact d2

/-- Invariant of the secondary scan. -/
structure S (E : Env) (st : St) : Prop where
  forest : ∃ ρ δ, F E st ρ δ
  rs : ∀ c ∈ E.chunks, (st.fl c.base).reach = true ↔ Reach E c
  ir : ∀ c ∈ E.chunks, (st.fl c.base).ind = true → (st.fl c.base).reach = false
  ms : ∀ c ∈ E.chunks, (st.fl c.base).maybe = true → Touched E c
  mr : ∀ c ∈ E.chunks, MidReach E c → Reach E c ∨ (st.fl c.base).maybe = true
  mq : ∀ x ∈ st.mq, ∃ c ∈ E.chunks, x = (c.base, c.stop) ∧ (st.fl c.base).maybe = true
  ok : st.bad = false

/-- Progress of the secondary scan. -/
structure SR (E : Env) (a b : St) : Prop where
  r : ∀ x, (b.fl x).reach = (a.fl x).reach
  m : ∀ x, (a.fl x).maybe = true → (b.fl x).maybe = true
  i : ∀ x, (a.fl x).ind = true → (b.fl x).ind = true
  q : ∀ x ∈ a.mq, x ∈ b.mq
  new : ∀ c ∈ E.chunks, (b.fl c.base).maybe = true →
    (a.fl c.base).maybe = true ∨ (c.base, c.stop) ∈ b.mq
  fuel : left E Fl.maybe b + b.mq.length ≤ left E Fl.maybe a + a.mq.length
  own : ∀ u c, U E a u → climb a.ue (E.chunks.length + 1) u.base = some c →
    (b.fl c).ind = true ∨ climb b.ue (E.chunks.length + 1) u.base = some c

/-- The word of the chunk has been dealt with. -/
def SD (E : Env) (u : Chunk) (st : St) (w : Word) : Prop :=
  ∀ c ∈ E.chunks, (Head E w c → (st.fl c.base).reach = true ∨ (st.fl c.base).ind = true ∨
      climb st.ue (E.chunks.length + 1) u.base = some c.base) ∧
    (Mid E w c → (st.fl c.base).reach = true ∨ (st.fl c.base).maybe = true ∨
      (st.fl c.base).ind = true)

theorem SR.refl {E : Env} (a : St) : SR E a a :=
  ⟨fun _ => rfl, fun _ h => h, fun _ h => h, fun _ h => h, fun _ _ h => .inl h, Nat.le_refl _,
   fun _ _ _ h => .inr h⟩

theorem SR.U {E : Env} {a b : St} (h : SR E a b) (c : Chunk) : U E b c ↔ U E a c := by
  unfold Leak.U; rw [h.r]

theorem SR.trans {E : Env} {a b c : St} (h : SR E a b) (k : SR E b c) : SR E a c :=
  ⟨fun x => (k.r x).trans (h.r x), fun x hx => k.m x (h.m x hx), fun x hx => k.i x (h.i x hx),
   fun x hx => k.q x (h.q x hx),
   fun d hd hx => by
    rcases k.new d hd hx with hx | hx
    · exact (h.new d hd hx).imp id (k.q _)
    · exact .inr hx,
   Nat.le_trans k.fuel h.fuel,
   fun u c hu hc => by
    rcases h.own u c hu hc with h1 | h1
    · exact .inl (k.i _ h1)
    · exact k.own u c ((h.U u).2 hu) h1⟩

theorem SD.mono {E : Env} {u : Chunk} {a b : St} (h : SR E a b) {w : Word} (hu : Leak.U E a u)
    (k : SD E u a w) : SD E u b w := by
  intro c hc
  refine ⟨fun hh => ?_, fun hh => ?_⟩
  · rcases (k c hc).1 hh with h1 | h1 | h1
    · left; rw [h.r]; exact h1
    · exact .inr (.inl (h.i _ h1))
    · exact .inr (h.own u _ hu h1)
  · rcases (k c hc).2 hh with h1 | h1 | h1
    · left; rw [h.r]; exact h1
    · exact .inr (.inl (h.m _ h1))
    · exact .inr (.inr (h.i _ h1))

end Verif.Leak
