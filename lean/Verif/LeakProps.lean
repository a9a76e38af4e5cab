import Verif.Leak
import Verif.RedBlackThms

/-! # The leak scan: specification, table lookups and the primary scan -/
namespace Verif.Leak
open Verif

/-- The address lies in the chunk. -/
def Chunk.Covers (c : Chunk) (a : Nat) : Prop := c.base ≤ a ∧ a < c.stop

/-- What is assumed about the heap: chunks are proper disjoint intervals above the lowest pointer,
a chunk's words lie inside it and the root words outside all chunks. -/
structure WF (E : Env) : Prop where
  pos : ∀ c ∈ E.chunks, 0 < c.size
  top : ∀ c ∈ E.chunks, c.base + c.size < 2 ^ 64
  low : ∀ c ∈ E.chunks, E.low ≤ c.base
  nz : ∀ c ∈ E.chunks, c.base ≠ 0
  apart : E.chunks.Pairwise fun a b => a.stop ≤ b.base ∨ b.stop ≤ a.base
  inside : ∀ c ∈ E.chunks, ∀ w ∈ E.words c.base c.stop, c.Covers w.addr
  out : ∀ w ∈ E.roots, ∀ c ∈ E.chunks, ¬ c.Covers w.addr

/-- The word is not dismissed: it is not part of a string and not in the chunk it points to. -/
def Counts (E : Env) (w : Word) (c : Chunk) : Prop :=
  c ∈ E.chunks ∧ ¬ c.Covers w.addr ∧ ¬ (w.addr > 4096 ∧ E.isStr w.addr w.dend = true)

/-- The word points to the head of the chunk, or to a place inside that the heuristics accept. -/
def Head (E : Env) (w : Word) (c : Chunk) : Prop :=
  Counts E w c ∧ (w.val = c.base ∨ (c.base < w.val ∧ w.val < c.stop ∧
    E.legit w.val c.base c.stop = true))

/-- The word points into the middle of the chunk. -/
def Mid (E : Env) (w : Word) (c : Chunk) : Prop :=
  Counts E w c ∧ c.base < w.val ∧ w.val < c.stop ∧ E.legit w.val c.base c.stop = false

/-- Reachable from a root by head pointers. -/
inductive Reach (E : Env) : Chunk → Prop
  | root {w : Word} {c : Chunk} : w ∈ E.roots → Head E w c → Reach E c
  | step {c d : Chunk} {w : Word} : Reach E c → w ∈ E.words c.base c.stop → Head E w d → Reach E d

theorem Reach.mem {E : Env} {c : Chunk} (h : Reach E c) : c ∈ E.chunks := by
  cases h with
  | root _ h => exact h.1.1
  | step _ _ h => exact h.1.1

/-- Pointed into the middle from a root or a reachable chunk. -/
def MidReach (E : Env) (c : Chunk) : Prop :=
  ∃ w, Mid E w c ∧ (w ∈ E.roots ∨ ∃ d, Reach E d ∧ w ∈ E.words d.base d.stop)

/-! ## Chunks -/

theorem WF.uniq {E : Env} (h : WF E) {c d : Chunk} (hc : c ∈ E.chunks) (hd : d ∈ E.chunks)
    {a : Nat} (h1 : c.Covers a) (h2 : d.Covers a) : c = d := by
  refine Classical.byContradiction fun hne => ?_
  have key : ∀ l : List Chunk, l.Pairwise (fun a b => a.stop ≤ b.base ∨ b.stop ≤ a.base) →
      ∀ x ∈ l, ∀ y ∈ l, x ≠ y → x.stop ≤ y.base ∨ y.stop ≤ x.base := by
    intro l
    induction l with
    | nil => intro _ x hx; cases hx
    | cons z l ih =>
      intro hp x hx y hy hxy
      rw [List.pairwise_cons] at hp
      rcases List.mem_cons.1 hx with ex | ex <;> rcases List.mem_cons.1 hy with ey | ey
      · exact absurd (ex.trans ey.symm) hxy
      · rw [ex]; exact hp.1 y ey
      · rw [ey]; exact (hp.1 x ex).symm
      · exact ih hp.2 x ex y ey hxy
  have := key _ h.apart c hc d hd hne
  unfold Chunk.Covers at h1 h2
  omega

theorem WF.cov {E : Env} (h : WF E) {c : Chunk} (hc : c ∈ E.chunks) : c.Covers c.base := by
  have := h.pos c hc
  unfold Chunk.Covers Chunk.stop; omega

theorem WF.inj {E : Env} (h : WF E) {c d : Chunk} (hc : c ∈ E.chunks) (hd : d ∈ E.chunks)
    (e : c.base = d.base) : c = d :=
  h.uniq hc hd (h.cov hc) (by rw [e]; exact h.cov hd)

/-- The tree holds exactly the chunks. -/
structure TreeOk (E : Env) (t : RB.Tree) : Prop where
  val : RB.Valid t
  mem : ∀ x, x ∈ RB.toList t ↔ ∃ c ∈ E.chunks, x = ⟨c.base, c.size, 0⟩

theorem build_go (dbg : Bool) : ∀ (cs : List Chunk) (t : RB.Tree), RB.Valid t →
    (∀ c ∈ cs, 0 < c.size ∧ c.base + c.size < 2 ^ 64) →
    cs.Pairwise (fun a b => a.stop ≤ b.base ∨ b.stop ≤ a.base) →
    (∀ c ∈ cs, ∀ x ∈ RB.toList t, ¬ RB.Overlap ⟨c.base, c.size, 0⟩ x) →
    ∃ t', build dbg cs t false = some (t', false) ∧ RB.Valid t' ∧
      ∀ x, x ∈ RB.toList t' ↔ (∃ c ∈ cs, x = ⟨c.base, c.size, 0⟩) ∨ x ∈ RB.toList t := by
  intro cs
  induction cs with
  | nil => intro t hv _ _ _; exact ⟨t, rfl, hv, by simp⟩
  | cons c cs ih =>
    intro t hv hg hp ho
    rw [List.pairwise_cons] at hp
    obtain ⟨t1, h1, h2, h3⟩ := RB.C15_insert_fresh (d := dbg) (n := ⟨c.base, c.size, 0⟩) hv
      (hg c List.mem_cons_self) (ho c List.mem_cons_self)
    obtain ⟨t', i1, i2, i3⟩ := ih t1 h2 (fun x hx => hg x (List.mem_cons_of_mem _ hx)) hp.2 (by
      intro d hd x hx
      rcases (h3 x).1 hx with rfl | hx
      · rintro ⟨a, ⟨a1, a2⟩, ⟨b1, b2⟩⟩
        have := hp.1 d hd
        unfold Chunk.stop at this
        dsimp only at a1 a2 b1 b2
        omega
      · exact ho d (List.mem_cons_of_mem _ hd) x hx)
    refine ⟨t', ?_, i2, ?_⟩
    · unfold build
      rw [h1, Option.bind_some]
      exact i1
    · intro x
      rw [i3, h3]
      constructor
      · rintro (⟨d, hd, e⟩ | e | e)
        · exact .inl ⟨d, List.mem_cons_of_mem _ hd, e⟩
        · exact .inl ⟨c, List.mem_cons_self, e⟩
        · exact .inr e
      · rintro (⟨d, hd, e⟩ | e)
        · rcases List.mem_cons.1 hd with rfl | hd
          · exact .inr (.inl e)
          · exact .inl ⟨d, hd, e⟩
        · exact .inr (.inr e)

theorem WF.build {E : Env} (h : WF E) :
    ∃ t, build E.dbg E.chunks .nil false = some (t, false) ∧ TreeOk E t := by
  obtain ⟨t, h1, h2, h3⟩ := build_go E.dbg E.chunks .nil RB.Valid.nil
    (fun c hc => ⟨h.pos c hc, h.top c hc⟩) h.apart (by intro c _ x hx; simp [RB.toList] at hx)
  exact ⟨t, h1, h2, fun x => by rw [h3]; simp [RB.toList]⟩

theorem TreeOk.some {E : Env} {t : RB.Tree} (h : TreeOk E t) {c : Chunk} (hc : c ∈ E.chunks)
    {a : Nat} (ha : c.Covers a) : RB.inNode a t = some ⟨c.base, c.size, 0⟩ :=
  (RB.C15_in_node a _ h.val).2 ⟨(h.mem _).2 ⟨c, hc, rfl⟩, ha⟩

theorem TreeOk.none {E : Env} {t : RB.Tree} (h : TreeOk E t) {a : Nat}
    (ha : ∀ c ∈ E.chunks, ¬ c.Covers a) : RB.inNode a t = none := by
  rw [RB.C15_in_node_none a h.val]
  intro e he hcv
  obtain ⟨c, hc, rfl⟩ := (h.mem e).1 he
  exact ha c hc hcv

theorem mallocEnd_some {E : Env} (h : WF E) {c : Chunk} (hc : c ∈ E.chunks) :
    mallocEnd E c.base = some c.stop := by
  unfold mallocEnd
  cases hf : E.chunks.find? (fun x => x.base = c.base) with
  | none =>
    have := List.find?_eq_none.1 hf c hc
    simp at this
  | some d =>
    have h1 := List.mem_of_find?_eq_some hf
    have h2 := List.find?_some hf
    rw [h.inj h1 hc (of_decide_eq_true h2)]
    rfl

theorem mallocEnd_none {E : Env} {p : Nat} (h : ∀ c ∈ E.chunks, c.base ≠ p) :
    mallocEnd E p = none := by
  unfold mallocEnd
  cases hf : E.chunks.find? (fun x => x.base = p) with
  | none => rfl
  | some d =>
    have h2 := List.find?_some hf
    exact absurd (of_decide_eq_true h2) (h d (List.mem_of_find?_eq_some hf))

theorem Head.cov {E : Env} (h : WF E) {w : Word} {c : Chunk} (hw : Head E w c) : c.Covers w.val := by
  rcases hw.2 with e | ⟨h1, h2, -⟩
  · rw [e]; exact h.cov hw.1.1
  · unfold Chunk.Covers; omega

theorem Mid.cov {E : Env} {w : Word} {c : Chunk} (hw : Mid E w c) : c.Covers w.val := by
  obtain ⟨-, h1, h2, -⟩ := hw
  unfold Chunk.Covers; omega

theorem Head.not_mid {E : Env} (h : WF E) {w : Word} {c d : Chunk} (hw : Head E w c) :
    ¬ Mid E w d := by
  intro hm
  obtain rfl := h.uniq hw.1.1 hm.1.1 (hw.cov h) hm.cov
  obtain ⟨-, h1, h2, h3⟩ := hm
  rcases hw.2 with e | ⟨-, -, e⟩
  · omega
  · rw [h3] at e; cases e

/-- What `check_reachability_pointer` does with a word. -/
theorem checkPointer_cases {E : Env} (h : WF E) {t : RB.Tree} (ht : TreeOk E t) (p : Bool) (st : St)
    (w : Word) :
    (∃ c, Head E w c ∧
      checkPointer E t p st w = reached E t p w.addr c.base c.stop c.base st) ∨
    (∃ c, Mid E w c ∧ checkPointer E t p st w = some (maybeReached c.base c.stop st)) ∨
    ((∀ c, ¬ Head E w c ∧ ¬ Mid E w c) ∧ checkPointer E t p st w = some st) := by
  by_cases hcov : ∃ c ∈ E.chunks, c.Covers w.val
  · obtain ⟨c, hc, hcv⟩ := hcov
    have h0 : w.val ≠ 0 := by
      have := h.nz c hc
      unfold Chunk.Covers at hcv; omega
    have hl : ¬ w.val < E.low := by
      have := h.low c hc
      unfold Chunk.Covers at hcv; omega
    have only : ∀ d, d.Covers w.val → d ∈ E.chunks → d = c :=
      fun d hd hm => h.uniq hm hc hd hcv
    unfold checkPointer
    rw [if_neg h0, if_neg hl, ht.some hc hcv]
    dsimp only
    by_cases hs : w.addr > 4096 ∧ E.isStr w.addr w.dend = true
    · rw [if_pos hs]
      exact .inr (.inr ⟨fun d => ⟨fun hd => hd.1.2.2 hs, fun hd => hd.1.2.2 hs⟩, rfl⟩)
    rw [if_neg hs]
    by_cases hb : w.val = c.base
    · rw [show mallocEnd E w.val = some c.stop by rw [hb]; exact mallocEnd_some h hc]
      dsimp only
      by_cases hown : w.val ≤ w.addr ∧ w.addr < c.stop
      · rw [if_pos hown]
        have ho : c.Covers w.addr := by unfold Chunk.Covers; omega
        refine .inr (.inr ⟨fun d => ⟨fun hd => ?_, fun hd => ?_⟩, rfl⟩)
        · rw [only d (hd.cov h) hd.1.1] at hd; exact hd.1.2.1 ho
        · rw [only d hd.cov hd.1.1] at hd; exact hd.1.2.1 ho
      · rw [if_neg hown]
        refine .inl ⟨c, ⟨⟨hc, ?_, hs⟩, .inl hb⟩, by rw [hb]⟩
        unfold Chunk.Covers; omega
    · have hin : c.base < w.val ∧ w.val < c.stop := by unfold Chunk.Covers at hcv; omega
      rw [mallocEnd_none (p := w.val) (by
        intro d hd hh
        have : d = c := only d (by rw [← hh]; exact h.cov hd) hd
        rw [this] at hh
        exact hb hh.symm)]
      dsimp only
      have hst : c.base + c.size = c.stop := rfl
      rw [hst]
      by_cases hown : c.base ≤ w.addr ∧ w.addr < c.stop
      · rw [if_pos hown]
        refine .inr (.inr ⟨fun d => ⟨fun hd => ?_, fun hd => ?_⟩, rfl⟩)
        · rw [only d (hd.cov h) hd.1.1] at hd; exact hd.1.2.1 hown
        · rw [only d hd.cov hd.1.1] at hd; exact hd.1.2.1 hown
      · rw [if_neg hown]
        by_cases hg : E.legit w.val c.base c.stop = true
        · rw [if_pos hg]
          exact .inl ⟨c, ⟨⟨hc, hown, hs⟩, .inr ⟨hin.1, hin.2, hg⟩⟩, rfl⟩
        · rw [if_neg hg]
          exact .inr (.inl ⟨c, ⟨⟨hc, hown, hs⟩, hin.1, hin.2, by simpa using hg⟩, rfl⟩)
  · right; right
    refine ⟨fun c => ⟨fun hd => hcov ⟨c, hd.1.1, hd.cov h⟩, fun hd => hcov ⟨c, hd.1.1, hd.cov⟩⟩, ?_⟩
    unfold checkPointer
    rw [ht.none (a := w.val) (fun c hc hh => hcov ⟨c, hc, hh⟩)]
    split
    · rfl
    · split <;> rfl

/-! ## Loops -/

/-- Invariant rule for a loop that may stop with `none`. -/
theorem foldlM_inv {σ α : Type} {f : σ → α → Option σ} {I : σ → Prop} {R : σ → σ → Prop}
    {D : σ → α → Prop} (hrefl : ∀ s, R s s) (htr : ∀ a b c, R a b → R b c → R a c)
    (hD : ∀ a b x, R a b → I a → I b → D a x → D b x) : ∀ (L : List α),
    (∀ s x, I s → x ∈ L → ∃ s', f s x = some s' ∧ I s' ∧ R s s' ∧ D s' x) →
    ∀ s, I s → ∃ s', L.foldlM f s = some s' ∧ I s' ∧ R s s' ∧ ∀ x ∈ L, D s' x := by
  intro L
  induction L with
  | nil => intro _ s hs; exact ⟨s, rfl, hs, hrefl s, by simp⟩
  | cons x L ih =>
    intro hstep s hs
    obtain ⟨s1, e1, i1, r1, d1⟩ := hstep s x hs List.mem_cons_self
    obtain ⟨s2, e2, i2, r2, d2⟩ := ih (fun s y h hy => hstep s y h (List.mem_cons_of_mem _ hy)) s1 i1
    refine ⟨s2, ?_, i2, htr _ _ _ r1 r2, ?_⟩
    · rw [List.foldlM_cons, e1]; exact e2
    · intro y hy
      rcases List.mem_cons.1 hy with rfl | hy
      · exact hD _ _ _ r2 i1 i2 d1
      · exact d2 y hy

theorem upd_same {α : Type} (f : Nat → α) (a : Nat) (v : α) : upd f a v a = v := by simp [upd]

theorem upd_ne {α : Type} (f : Nat → α) {a b : Nat} (v : α) (h : b ≠ a) : upd f a v b = f b := by
  simp [upd, h]

/-! ## The primary scan -/

/-- Chunks for which the flag is not set. -/
def left (E : Env) (g : Fl → Bool) (st : St) : Nat :=
  E.chunks.countP fun c => !g (st.fl c.base)

theorem countP_flip {E : Env} (h : WF E) {c : Chunk} (hc : c ∈ E.chunks) {f g : Nat → Bool}
    (hf : f c.base = true) (hg : g c.base = false) (hr : ∀ b, b ≠ c.base → g b = f b) :
    E.chunks.countP (fun x => g x.base) + 1 = E.chunks.countP (fun x => f x.base) := by
  have key : ∀ l : List Chunk, l.Pairwise (fun a b => a.stop ≤ b.base ∨ b.stop ≤ a.base) →
      (∀ x ∈ l, 0 < x.size) → c ∈ l →
      l.countP (fun x => g x.base) + 1 = l.countP (fun x => f x.base) := by
    intro l
    induction l with
    | nil => intro _ _ h; cases h
    | cons z l ih =>
      intro hp hz hm
      rw [List.pairwise_cons] at hp
      rw [List.countP_cons, List.countP_cons]
      by_cases hzc : z.base = c.base
      · have hno : ∀ x ∈ l, x.base ≠ c.base := by
          intro x hx he
          have h1 := hp.1 x hx
          have h2 := hz x (List.mem_cons_of_mem _ hx)
          have h3 := hz z List.mem_cons_self
          unfold Chunk.stop at h1
          omega
        have : l.countP (fun x => g x.base) = l.countP (fun x => f x.base) := by
          apply List.countP_congr
          intro x hx
          rw [hr _ (hno x hx)]
        rw [this, hzc, hf, hg]
        simp
      · have hm' : c ∈ l := by
          rcases List.mem_cons.1 hm with e | e
          · exact absurd (by rw [e]) hzc
          · exact e
        have := ih hp.2 (fun x hx => hz x (List.mem_cons_of_mem _ hx)) hm'
        rw [hr _ hzc]
        omega
  exact key _ h.apart h.pos hc

/-- Invariant of the primary scan. -/
structure P (E : Env) (st : St) : Prop where
  rs : ∀ c ∈ E.chunks, (st.fl c.base).reach = true → Reach E c
  rq : ∀ x ∈ st.rq, ∃ c ∈ E.chunks, x = (c.base, c.stop) ∧ (st.fl c.base).reach = true
  ms : ∀ c ∈ E.chunks, (st.fl c.base).maybe = true → MidReach E c ∧ (c.base, c.stop) ∈ st.mq
  mq : ∀ x ∈ st.mq, ∃ c ∈ E.chunks, x = (c.base, c.stop) ∧ (st.fl c.base).maybe = true
  mc : st.mq.length + left E Fl.maybe st ≤ E.chunks.length
  ni : ∀ b, (st.fl b).ind = false
  ue : st.ue = fun _ => ⟨0, none⟩
  ok : st.bad = false

/-- Progress of the primary scan. -/
structure PR (E : Env) (a b : St) : Prop where
  r : ∀ x, (a.fl x).reach = true → (b.fl x).reach = true
  m : ∀ x, (a.fl x).maybe = true → (b.fl x).maybe = true
  q : ∀ x ∈ a.rq, x ∈ b.rq
  new : ∀ c ∈ E.chunks, (b.fl c.base).reach = true →
    (a.fl c.base).reach = true ∨ (c.base, c.stop) ∈ b.rq
  fuel : left E Fl.reach b + b.rq.length ≤ left E Fl.reach a + a.rq.length

/-- The targets of the word have their flags. -/
def PD (E : Env) (st : St) (w : Word) : Prop :=
  ∀ c, (Head E w c → (st.fl c.base).reach = true) ∧
    (Mid E w c → (st.fl c.base).reach = true ∨ (st.fl c.base).maybe = true)

theorem PR.refl {E : Env} (a : St) : PR E a a :=
  ⟨fun _ h => h, fun _ h => h, fun _ h => h, fun _ _ h => .inl h, Nat.le_refl _⟩

theorem PR.trans {E : Env} {a b c : St} (h : PR E a b) (k : PR E b c) : PR E a c :=
  ⟨fun x hx => k.r x (h.r x hx), fun x hx => k.m x (h.m x hx), fun x hx => k.q x (h.q x hx),
   fun d hd hx => by
    rcases k.new d hd hx with hx | hx
    · exact (h.new d hd hx).imp id (k.q _)
    · exact .inr hx,
   Nat.le_trans k.fuel h.fuel⟩

theorem PD.mono {E : Env} {a b : St} {w : Word} (h : PR E a b) (k : PD E a w) : PD E b w :=
  fun c => ⟨fun hh => h.r _ ((k c).1 hh), fun hh => ((k c).2 hh).imp (h.r _) (h.m _)⟩

/-- A word that counts for the primary scan. -/
def Src (E : Env) (w : Word) : Prop :=
  w ∈ E.roots ∨ ∃ d, Reach E d ∧ w ∈ E.words d.base d.stop

theorem Src.reach {E : Env} {w : Word} {c : Chunk} (hs : Src E w) (hw : Head E w c) : Reach E c := by
  rcases hs with h | ⟨d, hd, h⟩
  · exact .root h hw
  · exact .step hd h hw

theorem primary_step {E : Env} (h : WF E) {t : RB.Tree} (ht : TreeOk E t) {st : St} (hp : P E st)
    {w : Word} (hs : Src E w) :
    ∃ st', checkPointer E t true st w = some st' ∧ P E st' ∧ PR E st st' ∧ PD E st' w := by
  rcases checkPointer_cases h ht true st w with ⟨c, hc, e⟩ | ⟨c, hc, e⟩ | ⟨hno, e⟩
  · have hcm := hc.1.1
    have only : ∀ d, Head E w d → d = c := fun d hd => h.uniq hd.1.1 hcm (hd.cov h) (hc.cov h)
    rw [e]
    unfold reached
    rw [if_pos rfl]
    by_cases hr : (st.fl c.base).reach = true
    · rw [if_pos hr]
      refine ⟨st, rfl, hp, PR.refl _, fun d => ⟨fun hd => by rw [only d hd]; exact hr,
        fun hd => absurd hd (hc.not_mid h)⟩⟩
    · rw [if_neg hr]
      refine ⟨_, rfl, ?_, ?_, ?_⟩
      · refine ⟨?_, ?_, ?_, ?_, ?_, ?_, hp.ue, hp.ok⟩
        · intro d hd hh
          by_cases hdc : d.base = c.base
          · rw [h.inj hd hcm hdc]; exact hs.reach hc
          · simp only [upd_ne _ _ hdc] at hh
            exact hp.rs d hd hh
        · intro x hx
          rcases List.mem_append.1 hx with hx | hx
          · obtain ⟨d, hd, e1, e2⟩ := hp.rq x hx
            refine ⟨d, hd, e1, ?_⟩
            by_cases hdc : d.base = c.base
            · simp only [hdc, upd_same]
            · simp only [upd_ne _ _ hdc]; exact e2
          · refine ⟨c, hcm, List.mem_singleton.1 hx, ?_⟩
            simp only [upd_same]
        · intro d hd hh
          refine hp.ms d hd ?_
          by_cases hdc : d.base = c.base
          · simp only [hdc, upd_same] at hh; rw [hdc]; exact hh
          · simp only [upd_ne _ _ hdc] at hh; exact hh
        · intro x hx
          obtain ⟨d, hd, e1, e2⟩ := hp.mq x hx
          refine ⟨d, hd, e1, ?_⟩
          by_cases hdc : d.base = c.base
          · simp only [hdc, upd_same]; rw [← hdc]; exact e2
          · simp only [upd_ne _ _ hdc]; exact e2
        · refine Nat.le_trans (Nat.le_of_eq ?_) hp.mc
          unfold left
          congr 1
          apply List.countP_congr
          intro d hd
          by_cases hdc : d.base = c.base
          · simp only [hdc, upd_same]
          · simp only [upd_ne _ _ hdc]
        · intro b
          by_cases hdc : b = c.base
          · simp only [hdc, upd_same]; exact hp.ni _
          · simp only [upd_ne _ _ hdc]; exact hp.ni b
      · refine ⟨?_, ?_, ?_, ?_, ?_⟩
        · intro x hx
          by_cases hdc : x = c.base
          · simp only [hdc, upd_same]
          · simp only [upd_ne _ _ hdc]; exact hx
        · intro x hx
          by_cases hdc : x = c.base
          · simp only [hdc, upd_same]; rw [← hdc]; exact hx
          · simp only [upd_ne _ _ hdc]; exact hx
        · intro x hx; exact List.mem_append_left _ hx
        · intro d hd hh
          by_cases hdc : d.base = c.base
          · right; rw [h.inj hd hcm hdc]; simp
          · simp only [upd_ne _ _ hdc] at hh; exact .inl hh
        · have := countP_flip h hcm (f := fun b => !(st.fl b).reach)
            (g := fun b => !(upd st.fl c.base ⟨true, (st.fl c.base).maybe, (st.fl c.base).ind⟩ b).reach)
            (by simpa using hr) (by simp [upd_same]) (by intro b hb; simp only [upd_ne _ _ hb])
          unfold left
          simp only [List.length_append, List.length_cons, List.length_nil]
          omega
      · intro d
        refine ⟨fun hd => ?_, fun hd => absurd hd (hc.not_mid h)⟩
        rw [only d hd]
        simp only [upd_same]
  · have hcm := hc.1.1
    have only : ∀ d, Mid E w d → d = c := fun d hd => h.uniq hd.1.1 hcm hd.cov hc.cov
    rw [e]
    unfold maybeReached
    by_cases hr : (st.fl c.base).maybe = true ∨ (st.fl c.base).reach = true ∨ (st.fl c.base).ind = true
    · rw [if_pos hr]
      refine ⟨st, rfl, hp, PR.refl _, fun d => ⟨fun hd => absurd hc (hd.not_mid h), fun hd => ?_⟩⟩
      rw [only d hd]
      rcases hr with hr | hr | hr
      · exact .inr hr
      · exact .inl hr
      · rw [hp.ni] at hr; cases hr
    · rw [if_neg hr]
      have hm0 : (st.fl c.base).maybe = false := by
        cases hm : (st.fl c.base).maybe
        · rfl
        · exact absurd (.inl hm) hr
      have hleft := countP_flip h hcm (f := fun b => !(st.fl b).maybe)
            (g := fun b => !(upd st.fl c.base ⟨(st.fl c.base).reach, true, (st.fl c.base).ind⟩ b).maybe)
            (by simp [hm0]) (by simp [upd_same]) (by intro b hb; simp only [upd_ne _ _ hb])
      have hreach : ∀ b, (upd st.fl c.base ⟨(st.fl c.base).reach, true, (st.fl c.base).ind⟩ b).reach =
          (st.fl b).reach := by
        intro b
        by_cases hdc : b = c.base
        · simp only [hdc, upd_same]
        · simp only [upd_ne _ _ hdc]
      refine ⟨_, rfl, ?_, ?_, ?_⟩
      · refine ⟨?_, ?_, ?_, ?_, ?_, ?_, hp.ue, hp.ok⟩
        · intro d hd hh
          rw [hreach] at hh
          exact hp.rs d hd hh
        · intro x hx
          obtain ⟨d, hd, e1, e2⟩ := hp.rq x hx
          exact ⟨d, hd, e1, by rw [hreach]; exact e2⟩
        · intro d hd hh
          by_cases hdc : d.base = c.base
          · rw [h.inj hd hcm hdc]
            exact ⟨⟨w, hc, hs⟩, by simp⟩
          · simp only [upd_ne _ _ hdc] at hh
            exact ⟨(hp.ms d hd hh).1, List.mem_append_left _ (hp.ms d hd hh).2⟩
        · intro x hx
          rcases List.mem_append.1 hx with hx | hx
          · obtain ⟨d, hd, e1, e2⟩ := hp.mq x hx
            refine ⟨d, hd, e1, ?_⟩
            by_cases hdc : d.base = c.base
            · simp only [hdc, upd_same]
            · simp only [upd_ne _ _ hdc]; exact e2
          · refine ⟨c, hcm, List.mem_singleton.1 hx, ?_⟩
            simp only [upd_same]
        · have := hp.mc
          unfold left at this ⊢
          simp only [List.length_append, List.length_cons, List.length_nil]
          omega
        · intro b
          by_cases hdc : b = c.base
          · simp only [hdc, upd_same]; exact hp.ni _
          · simp only [upd_ne _ _ hdc]; exact hp.ni b
      · refine ⟨?_, ?_, fun _ hx => hx, ?_, ?_⟩
        · intro x hx; rw [hreach]; exact hx
        · intro x hx
          by_cases hdc : x = c.base
          · simp only [hdc, upd_same]
          · simp only [upd_ne _ _ hdc]; exact hx
        · intro d hd hh; rw [hreach] at hh; exact .inl hh
        · refine Nat.le_of_eq ?_
          unfold left
          simp only [hreach]
      · intro d
        refine ⟨fun hd => absurd hc (hd.not_mid h), fun hd => ?_⟩
        rw [only d hd]
        right
        simp only [upd_same]
  · rw [e]
    exact ⟨st, rfl, hp, PR.refl _, fun d => ⟨fun hd => absurd hd (hno d).1,
      fun hd => absurd hd (hno d).2⟩⟩

theorem primary_words {E : Env} (h : WF E) {t : RB.Tree} (ht : TreeOk E t) (L : List Word)
    (hs : ∀ w ∈ L, Src E w) {st : St} (hp : P E st) :
    ∃ st', L.foldlM (checkPointer E t true) st = some st' ∧ P E st' ∧ PR E st st' ∧
      ∀ w ∈ L, PD E st' w :=
  foldlM_inv (I := P E) (R := PR E) (D := PD E) PR.refl (fun _ _ _ => PR.trans)
    (fun _ _ _ h _ _ k => k.mono h) L (fun _ w hI hw => primary_step h ht hI (hs w hw)) st hp

/-- Everything flagged is queued or has been looked at. -/
def PQ (E : Env) (st : St) : Prop :=
  ∀ c ∈ E.chunks, (st.fl c.base).reach = true →
    (c.base, c.stop) ∈ st.rq ∨ ∀ w ∈ E.words c.base c.stop, PD E st w

theorem walkReach_spec {E : Env} (h : WF E) {t : RB.Tree} (ht : TreeOk E t) : ∀ (n : Nat) (st : St),
    P E st → PQ E st → left E Fl.reach st + st.rq.length < n →
    ∃ st', walkReach E t n st = some st' ∧ P E st' ∧ PQ E st' ∧ st'.rq = [] ∧
      (∀ w, PD E st w → PD E st' w) := by
  intro n
  induction n with
  | zero => intro st _ _ hn; omega
  | succ n ih =>
    intro st hp hq hn
    unfold walkReach
    cases hrq : st.rq with
    | nil => exact ⟨st, rfl, hp, hq, hrq, fun _ h => h⟩
    | cons x q =>
      obtain ⟨s, e⟩ := x
      dsimp only
      obtain ⟨c, hc, hce, hcr⟩ := hp.rq (s, e) (by rw [hrq]; exact List.mem_cons_self)
      obtain ⟨rfl, rfl⟩ := Prod.mk.inj hce
      have hp0 : P E { st with rq := q } :=
        ⟨hp.rs, fun x hx => hp.rq x (by rw [hrq]; exact List.mem_cons_of_mem _ hx), hp.ms, hp.mq,
          hp.mc, hp.ni, hp.ue, hp.ok⟩
      obtain ⟨s1, e1, p1, r1, d1⟩ := primary_words h ht (E.words c.base c.stop)
        (fun w hw => .inr ⟨c, hp.rs c hc hcr, hw⟩) hp0
      rw [e1, Option.bind_some]
      have hq1 : PQ E s1 := by
        intro d hd hdr
        rcases r1.new d hd hdr with h1 | h1
        · rcases hq d hd h1 with h2 | h2
          · rw [hrq] at h2
            rcases List.mem_cons.1 h2 with h3 | h3
            · have := h.inj hd hc (Prod.mk.inj h3).1
              rw [this]
              exact .inr d1
            · exact .inl (r1.q _ h3)
          · exact .inr fun w hw => PD.mono (a := { st with rq := q }) r1 (h2 w hw)
        · exact .inl h1
      obtain ⟨s2, e2, p2, q2, z2, m2⟩ := ih s1 p1 hq1 (by
        have h1 := r1.fuel
        have h2 : left E Fl.reach { st with rq := q } = left E Fl.reach st := rfl
        rw [h2] at h1
        rw [hrq] at hn
        simp only [List.length_cons] at hn
        dsimp only at h1
        omega)
      exact ⟨s2, e2, p2, q2, z2, fun w hw => m2 w (PD.mono (a := { st with rq := q }) r1 hw)⟩

theorem P_init (E : Env) : P E St.init :=
  ⟨by simp [St.init], by simp [St.init], by simp [St.init], by simp [St.init],
   by simp only [St.init, List.length_nil, Nat.zero_add]; exact List.countP_le_length,
   by simp [St.init], rfl, rfl⟩

/-- After the primary scan: exactly the reachable chunks have the flag. -/
theorem primary_spec {E : Env} (h : WF E) {t : RB.Tree} (ht : TreeOk E t) :
    ∃ st, primary E t St.init = some st ∧ P E st ∧ st.rq = [] ∧
      (∀ c ∈ E.chunks, (st.fl c.base).reach = true ↔ Reach E c) ∧
      (∀ c ∈ E.chunks, MidReach E c → Reach E c ∨ (st.fl c.base).maybe = true) := by
  obtain ⟨s1, e1, p1, r1, d1⟩ := primary_words h ht E.roots (fun w hw => .inl hw) (P_init E)
  have hq1 : PQ E s1 := by
    intro c hc hr
    rcases r1.new c hc hr with h1 | h1
    · simp [St.init] at h1
    · exact .inl h1
  obtain ⟨s2, e2, p2, q2, z2, m2⟩ := walkReach_spec h ht (E.chunks.length + 1) s1 p1 hq1 (by
    have h1 := r1.fuel
    have h2 : left E Fl.reach St.init ≤ E.chunks.length := List.countP_le_length
    simp only [St.init, List.length_nil] at h1 h2
    omega)
  have hq : ∀ c ∈ E.chunks, (s2.fl c.base).reach = true → ∀ w ∈ E.words c.base c.stop, PD E s2 w := by
    intro c hc hr
    rcases q2 c hc hr with h1 | h1
    · rw [z2] at h1; cases h1
    · exact h1
  have hreach : ∀ c, Reach E c → (s2.fl c.base).reach = true := by
    intro c hc
    induction hc with
    | root hw hh => exact (m2 _ (d1 _ hw) _).1 hh
    | step hr hw hh ih => exact (hq _ hr.mem ih _ hw _).1 hh
  refine ⟨s2, ?_, p2, z2, fun c hc => ⟨p2.rs c hc, hreach c⟩, ?_⟩
  · unfold primary
    rw [e1, Option.bind_some, e2]
  · rintro c hc ⟨w, hw, h1 | ⟨d, hd, h1⟩⟩
    · exact ((m2 _ (d1 _ h1) c).2 hw).imp (p2.rs c hc) id
    · exact ((hq d hd.mem (hreach d hd) w h1 c).2 hw).imp (p2.rs c hc) id

end Verif.Leak
