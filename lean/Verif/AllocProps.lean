import Verif.AllocRun

/-!
# The replacement allocator: properties C20-C26

The application keeps a ledger of the blocks it was given (`ledger`), independent of the allocator.
The theorems compare the allocator with this ledger for every sequence of calls.
-/
namespace Verif.Al

variable {c : Cfg} {s : St} {L Q : List (Nat × Nat)}

/-! ## The application's view -/

/-- What the application knows to own after a call that returned `r`. -/
def ledger (L : List (Nat × Nat)) (op : Op) (r : Nat) : List (Nat × Nat) :=
  match op with
  | .alloc _ req _ _ => if r = 0 then L else (r, req) :: L
  | .free _ p => drop L p
  | .realloc _ p size f =>
    if p = 0 then if r = 0 then L else (r, size) :: L
    else if size = 0 ∧ f.allowEmpty = false then drop L p
    else if r = 0 then L else (r, size) :: drop L p
  | .store _ _ => L

/-- Whether an address is the start of an owned block. -/
def owns (L : List (Nat × Nat)) (p : Nat) : Bool := L.any fun x => x.1 = p

/-- The block given up by a call. -/
def freedBy (L : List (Nat × Nat)) (op : Op) (r : Nat) : List (Nat × Nat) :=
  match op with
  | .free _ p => L.filter fun x => x.1 = p
  | .realloc _ p size f =>
    if p ≠ 0 ∧ ((size = 0 ∧ f.allowEmpty = false) ∨ (r ≠ 0 ∧ r ≠ p)) then L.filter fun x => x.1 = p
    else []
  | _ => []

/-- Whether a block has a mapping of its own. -/
def large (s : St) (p : Nat) : Bool := s.maps.any fun m => m.ptr = p

/-- Conditions on a call: the size does not come within a few pages of 4 GB, the system hands out
unused memory, and the application writes only to its own blocks. -/
def Good (c : Cfg) (s : St) (L : List (Nat × Nat)) : Op → Prop
  | .alloc os req align _ => Fits c req align ∧ OsFor c s os req align
  | .free _ _ => True
  | .realloc os _ size _ => Fits c size 0 ∧ OsFor c s os size 0
  | .store a _ => ∃ x ∈ L, x.1 ≤ a ∧ a < x.1 + x.2

/-- The system has memory during the call. -/
def Op.avail : Op → Prop
  | .alloc os _ _ _ => os.ext ≠ none ∨ os.arena ≠ none
  | .realloc os _ _ _ => os.ext ≠ none ∨ os.arena ≠ none
  | _ => True

/-- Whether the argument of a call is valid. -/
def validArg (L : List (Nat × Nat)) : Op → Bool
  | .free _ p => owns L p
  | .realloc _ p _ _ => p = 0 || owns L p
  | _ => true

/-- A sequence of calls: the final state, the ledger, and the blocks given up (with the size asked
for, and whether they had a mapping of their own). -/
def exec (c : Cfg) :
    St → List (Nat × Nat) → List Op → Option (St × List (Nat × Nat) × List ((Nat × Nat) × Bool))
  | s, L, [] => some (s, L, [])
  | s, L, op :: ops =>
    match step c s op with
    | none => none
    | some (s', r, _) =>
      match exec c s' (ledger L op r) ops with
      | none => none
      | some (s'', L', F) => some (s'', L', ((freedBy L op r).map fun x => (x, large s x.1)) ++ F)

/-- All calls of a sequence satisfy the conditions. -/
def GoodRun (c : Cfg) : St → List (Nat × Nat) → List Op → Prop
  | _, _, [] => True
  | s, L, op :: ops => Good c s L op ∧
    ∀ s' r ok, step c s op = some (s', r, ok) → GoodRun c s' (ledger L op r) ops

/-! ## One call -/

theorem owns_iff {p : Nat} : owns L p = true ↔ ∃ q, (p, q) ∈ L := by
  unfold owns
  rw [List.any_eq_true]
  constructor
  · rintro ⟨⟨x, q⟩, h, e⟩
    simp only [decide_eq_true_eq] at e
    subst e
    exact ⟨q, h⟩
  · rintro ⟨q, h⟩
    exact ⟨(p, q), h, by simp⟩

theorem Inv.isLive (hc : CfgOk c) (h : Inv c s L Q) (p : Nat) : isLive c s p = owns L p := by
  obtain ⟨R, G, hp, hcalm, hL, rfl⟩ := h
  rw [Bool.eq_iff_iff, hp.isLive_iff hc hcalm, owns_iff]
  constructor
  · rintro ⟨q, hq⟩; exact ⟨q, hL.mem_iff.2 hq⟩
  · rintro ⟨q, hq⟩; exact ⟨q, hL.mem_iff.1 hq⟩

theorem Inv.pos (hc : CfgOk c) (h : Inv c s L Q) {x : Nat × Nat} (hx : x ∈ L) : 0 < x.1 := by
  obtain ⟨R, G, hp, hcalm, hL, rfl⟩ := h
  exact (hp.block_place hc (hL.mem_iff.1 hx)).1

theorem large_iff {p : Nat} : large s p = true ↔ ∃ m ∈ s.maps, m.ptr = p := by
  unfold large
  rw [List.any_eq_true]
  simp only [decide_eq_true_eq]

theorem filter_unique : ∀ {L : List (Nat × Nat)} {p q : Nat}, (L.Pairwise fun x y => x.1 ≠ y.1) →
    (p, q) ∈ L → L.filter (fun x => x.1 = p) = [(p, q)] := by
  intro L p q
  induction L with
  | nil => intro _ h; cases h
  | cons x L ih =>
    intro hw h
    obtain ⟨h1, h2⟩ := List.pairwise_cons.1 hw
    rcases List.mem_cons.1 h with rfl | h
    · rw [List.filter_cons_of_pos (by simp)]
      congr 1
      rw [List.filter_eq_nil_iff]
      intro y hy
      simpa using (h1 y hy).symm
    · rw [List.filter_cons_of_neg (by simpa using h1 _ h)]
      exact ih h2 h

theorem Inv.apart (h : Inv c s L Q) : L.Pairwise (Apart c.inter) := by
  obtain ⟨R, G, hp, hcalm, hL, rfl⟩ := h
  exact (hL.pairwise_iff (fun h => h.symm)).2 hp.blocks_apart

theorem Inv.filter (h : Inv c s L Q) {p q : Nat} (hq : (p, q) ∈ L) :
    L.filter (fun x => x.1 = p) = [(p, q)] := by
  refine filter_unique (h.apart.imp ?_) hq
  intro x y hxy he
  have := inter_pos c
  unfold Apart at hxy
  omega

theorem filter_none {p : Nat} (h : owns L p = false) : L.filter (fun x => x.1 = p) = [] := by
  rw [List.filter_eq_nil_iff]
  rintro ⟨x, q⟩ hx he
  simp only [decide_eq_true_eq] at he
  subst he
  rw [owns_iff.2 ⟨q, hx⟩] at h
  cases h

/-- How the quarantine changes: without memory from the system the oldest blocks leave it; a block
that is given up enters at the end, unless it was large; then the queue is cut to its limits. -/
def QStep (c : Cfg) (s : St) (L Q Q' : List (Nat × Nat)) (op : Op) (r : Nat) : Prop :=
  ∃ d Q1, Q = d ++ Q1 ∧ (op.avail → d = []) ∧
    ((Q' = Q1 ∧ ∀ x ∈ freedBy L op r, large s x.1 = true) ∨
      ∃ p q z, freedBy L op r = [(p, q)] ∧ large s p = false ∧ q ≤ z ∧
        Q' = trim c.delayFrees c.delayMax (Q1 ++ [(p, z)]))

/-- What is in memory after a call. -/
def MemStep (L : List (Nat × Nat)) (op : Op) (r : Nat) (mem mem' : Nat → UInt8) : Prop :=
  match op with
  | .alloc _ req _ zero => (zero = true → r ≠ 0 → ∀ i, i < req → mem' (r + i) = 0) ∧
      ∀ b, (r = 0 ∨ ¬ (r ≤ b ∧ b < r + req)) → mem' b = mem b
  | .free _ _ => mem' = mem
  | .realloc _ p size f =>
      (∀ q, (p, q) ∈ L → (size = 0 → f.allowEmpty = true) → r ≠ 0 →
        ∀ i, i < size → i < q → mem' (r + i) = mem (p + i)) ∧
      (f.zero = true → r ≠ 0 → ∀ i, i < size → (∀ q, (p, q) ∈ L → q ≤ i) → mem' (r + i) = 0) ∧
      ∀ b, (r = 0 ∨ ¬ (r ≤ b ∧ b < r + size)) → mem' b = mem b
  | .store a v => mem' = fun x => if x = a then v else mem x

theorem free_inv (hc : CfgOk c) (h : Inv c s L Q) (os : Os) (p : Nat) :
    ∃ s' Q', free c os s p = some (s', owns L p) ∧ Inv c s' (drop L p) Q' ∧ s'.mem = s.mem ∧
      (owns L p = false → s' = s ∧ Q' = Q) ∧
      ((Q' = Q ∧ ∀ x ∈ L.filter (fun x => x.1 = p), large s x.1 = true) ∨
        ∃ q z, L.filter (fun x => x.1 = p) = [(p, q)] ∧ large s p = false ∧ q ≤ z ∧
          Q' = trim c.delayFrees c.delayMax (Q ++ [(p, z)])) := by
  have hi := h
  obtain ⟨R, G, hp, hcalm, hL, rfl⟩ := h
  cases ho : owns L p with
  | false =>
    have hno : ∀ q, (p, q) ∉ L := by
      intro q hq
      rw [owns_iff.2 ⟨q, hq⟩] at ho
      cases ho
    refine ⟨s, quar R s, ?_, ?_, rfl, fun _ => ⟨rfl, rfl⟩, Or.inl ⟨rfl, fun x hx => ?_⟩⟩
    · exact free_invalid hc hp hcalm os fun q hq => hno q (hL.mem_iff.2 hq)
    · rw [drop_none hno]; exact hi
    · rw [filter_none ho] at hx; cases hx
  | true =>
    obtain ⟨q, hq⟩ := owns_iff.1 ho
    have hf := hi.filter hq
    obtain ⟨s', R', G', x, e, P, C, m, b, hx, hle, hmm, hqr⟩ := free_spec hc hp hcalm os (hL.mem_iff.1 hq)
    refine ⟨s', quar R' s', e, ⟨R', G', P, C, (drop_perm hL p).trans b, rfl⟩, m, fun h => (by cases h), ?_⟩
    cases hxm : x.mmap with
    | true =>
      rw [hxm, if_pos rfl] at hqr
      refine Or.inl ⟨hqr, fun y hy => ?_⟩
      rw [hf] at hy
      rcases List.mem_singleton.1 hy with rfl
      exact large_iff.2 (hmm hxm)
    | false =>
      rw [hxm, if_neg (by simp)] at hqr
      refine Or.inr ⟨q, x.size, hf, ?_, hle, hqr⟩
      rw [Bool.eq_false_iff]
      intro hl
      obtain ⟨m', hm', he⟩ := large_iff.1 hl
      obtain ⟨-, y, hy, hy', -⟩ := hp.hdr_map hm'
      rw [he, hx] at hy
      cases hy
      rw [hxm] at hy'
      cases hy'

theorem alloc_inv (hc : CfgOk c) (h : Inv c s L Q) {os : Os} {req align : Nat} (zero : Bool)
    (hfit : Fits c req align) (hos : OsFor c s os req align) :
    ∃ s' r Q', alloc c os s req align zero = some (s', r) ∧
      Inv c s' (if r = 0 then L else (r, req) :: L) Q' ∧
      (∃ d, Q = d ++ Q' ∧ (os.ext ≠ none ∨ os.arena ≠ none → d = [])) ∧
      (r ≠ 0 → r % effAlign c align = 0 ∧ req < 2 ^ 32) ∧
      (zero = true → r ≠ 0 → ∀ i, i < req → s'.mem (r + i) = 0) ∧
      ∀ b, (r = 0 ∨ ¬ (r ≤ b ∧ b < r + req)) → s'.mem b = s.mem b := by
  obtain ⟨R, G, hp, hcalm, hL, rfl⟩ := h
  obtain ⟨s', r, R', G', e, P, C, hd, -, hr⟩ := alloc_spec hc hp hcalm zero hfit hos
  refine ⟨s', r, quar R' s', e, ?_, hd, ?_, ?_, ?_⟩
  · rcases hr with ⟨rfl, -, b⟩ | ⟨h0, -, -, b, -⟩
    · rw [if_pos rfl]; exact ⟨R', G', P, C, by rw [b]; exact hL, rfl⟩
    · rw [if_neg h0]; exact ⟨R', G', P, C, (hL.cons _).trans b.symm, rfl⟩
  · intro h0
    rcases hr with ⟨rfl, -, -⟩ | ⟨-, h1, h2, -, -⟩
    · exact absurd rfl h0
    · exact ⟨h2, h1⟩
  · intro hz h0 i hi
    rcases hr with ⟨rfl, -, -⟩ | ⟨-, -, -, -, m⟩
    · exact absurd rfl h0
    · rw [m, if_pos hz]
      simp only [St.zero]
      rw [if_pos (by omega)]
  · intro b hb
    rcases hr with ⟨rfl, m, -⟩ | ⟨h0, -, -, -, m⟩
    · rw [m]
    · rw [m]
      split
      · simp only [St.zero]
        rw [if_neg (by omega)]
      · rfl

/-- One call of the allocator: it does not fail, the ledger stays right, invalid arguments are
recognised, the quarantine and the contents of memory change as specified. -/
theorem step_inv (hc : CfgOk c) (h : Inv c s L Q) {op : Op} (hg : Good c s L op) :
    ∃ s' r Q', step c s op = some (s', r, validArg L op) ∧ Inv c s' (ledger L op r) Q' ∧
      QStep c s L Q Q' op r ∧ MemStep L op r s.mem s'.mem := by
  cases op with
  | alloc os req align zero =>
    obtain ⟨s', r, Q', e, hi, ⟨d, hd, hd'⟩, -, m1, m2⟩ := alloc_inv hc h zero hg.1 hg.2
    refine ⟨s', r, Q', by simp only [step, e]; rfl, hi, ⟨d, Q', hd, hd', Or.inl ⟨rfl, ?_⟩⟩, m1, m2⟩
    intro p hp
    cases hp
  | free os p =>
    obtain ⟨s', Q', e, hi, m, -, hq⟩ := free_inv hc h os p
    refine ⟨s', 0, Q', by simp only [step, e]; rfl, hi, ⟨[], Q, rfl, fun _ => rfl, ?_⟩, m⟩
    rcases hq with ⟨h1, h2⟩ | ⟨q, z, h1, h2, h3, h4⟩
    · exact Or.inl ⟨h1, h2⟩
    · exact Or.inr ⟨p, q, z, h1, h2, h3, h4⟩
  | store a v =>
    obtain ⟨x, hx, h1, h2⟩ := hg
    obtain ⟨R, G, hp, hcalm, hL, rfl⟩ := h
    refine ⟨store c s a v, 0, quar R s, rfl, ⟨R, G, store_spec hp (hL.mem_iff.1 hx) h1 h2 v, hcalm, hL, rfl⟩,
      ⟨[], _, rfl, fun _ => rfl, Or.inl ⟨rfl, fun p hp => by cases hp⟩⟩, rfl⟩
  | realloc os p size f =>
    obtain ⟨hfit, hos⟩ := hg
    have hown0 : owns L 0 = false := by
      rw [Bool.eq_false_iff]
      intro h0
      obtain ⟨q, hq⟩ := owns_iff.1 h0
      have := h.pos hc hq
      simp at this
    by_cases hp0 : p = 0
    · subst hp0
      have hno : ∀ q, (0, q) ∉ L := by
        intro q hq
        rw [owns_iff.2 ⟨q, hq⟩] at hown0
        cases hown0
      have hva : validArg L (.realloc os 0 size f) = true := by simp [validArg]
      have hfr : ∀ r, freedBy L (.realloc os 0 size f) r = [] := by
        intro r; simp [freedBy]
      rw [hva]
      by_cases hn : f.allowNull = true
      · obtain ⟨s', r, Q', e, hi, ⟨d, hd, hd'⟩, -, m1, m2⟩ := alloc_inv hc h f.zero hfit hos
        refine ⟨s', r, Q', ?_, ?_, ⟨d, Q', hd, hd', Or.inl ⟨rfl, ?_⟩⟩, ?_, ?_, m2⟩
        · simp only [step, realloc, if_true, hn, e]
        · simp only [ledger, if_true]; exact hi
        · intro p hp; rw [hfr] at hp; cases hp
        · intro q hq; exact absurd hq (hno q)
        · intro hz h0 i hi _; exact m1 hz h0 i hi
      · refine ⟨s, 0, Q, ?_, ?_, ⟨[], Q, rfl, fun _ => rfl, Or.inl ⟨rfl, ?_⟩⟩, ?_, ?_, fun _ _ => rfl⟩
        · simp only [step, realloc, if_true]
          rw [if_neg hn]
        · simp only [ledger, if_true]; exact h
        · intro p hp; rw [hfr] at hp; cases hp
        · intro q hq; exact absurd hq (hno q)
        · intro _ h0; exact absurd rfl h0
    · have hva : validArg L (.realloc os p size f) = owns L p := by simp [validArg, hp0]
      rw [hva]
      by_cases he : size = 0 ∧ f.allowEmpty = false
      · obtain ⟨s', Q', e, hi, m, hsame, hq⟩ := free_inv hc h os p
        refine ⟨s', 0, Q', ?_, ?_, ⟨[], Q, rfl, fun _ => rfl, ?_⟩, ?_, ?_, ?_⟩
        · simp only [step, realloc]
          rw [if_neg hp0, if_pos he, e]
        · simp only [ledger]
          rw [if_neg hp0, if_pos he]; exact hi
        · have hfr : freedBy L (.realloc os p size f) 0 = L.filter fun x => x.1 = p := by
            simp only [freedBy]
            rw [if_pos ⟨hp0, Or.inl he⟩]
          rw [hfr]
          rcases hq with ⟨h1, h2⟩ | ⟨q, z, h1, h2, h3, h4⟩
          · exact Or.inl ⟨h1, h2⟩
          · exact Or.inr ⟨p, q, z, h1, h2, h3, h4⟩
        · intro _ _ h1 h0; exact absurd rfl h0
        · intro _ h0; exact absurd rfl h0
        · intro b _; rw [m]
      · have hne : size = 0 → f.allowEmpty = true := by
          intro h0
          cases hb : f.allowEmpty with
          | true => rfl
          | false => exact absurd ⟨h0, hb⟩ he
        cases ho : owns L p with
        | false =>
          have hl := h.isLive hc p
          rw [ho] at hl
          refine ⟨s, 0, Q, ?_, ?_, ⟨[], Q, rfl, fun _ => rfl, Or.inl ⟨rfl, ?_⟩⟩, ?_, ?_, fun _ _ => rfl⟩
          · simp only [step, realloc]
            rw [if_neg hp0, if_neg he, hl]; rfl
          · simp only [ledger]
            rw [if_neg hp0, if_neg he, if_pos trivial]; exact h
          · intro p' hp'
            simp only [freedBy, filter_none ho] at hp'
            split at hp' <;> cases hp'
          · intro _ _ _ h0; exact absurd rfl h0
          · intro _ h0; exact absurd rfl h0
        | true =>
          obtain ⟨q, hq⟩ := owns_iff.1 ho
          have hf := h.filter hq
          obtain ⟨R, G, hp, hcalm, hL, rfl⟩ := h
          have huniq : ∀ q', (p, q') ∈ L → q' = q := by
            intro q' hq'
            have := hp.block_unique (hL.mem_iff.1 hq') (hL.mem_iff.1 hq) rfl
            exact (Prod.mk.inj this).2
          obtain ⟨s', r, R', G', e, P, C, ⟨d, Q1, hd, hd', hqr⟩, hr⟩ :=
            realloc_spec hc hp hcalm f (hL.mem_iff.1 hq) hne hfit hos
          refine ⟨s', r, quar R' s', e, ⟨R', G', P, C, ?_, rfl⟩, ⟨d, Q1, hd, hd', ?_⟩, ?_⟩
          · simp only [ledger]
            rw [if_neg hp0, if_neg he]
            rcases hr with ⟨rfl, -, b⟩ | ⟨h0, -, b, -⟩
            · rw [if_pos rfl, b]; exact hL
            · rw [if_neg h0]
              exact ((drop_perm hL p).cons _).trans b.symm
          · rcases hqr with ⟨h1, h2⟩ | ⟨h1, h2, h5, z, h3, h4⟩
            · refine Or.inl ⟨h1, fun p' hp' => ?_⟩
              simp only [freedBy] at hp'
              split at hp'
              · next hh =>
                rw [hf] at hp'
                rcases List.mem_singleton.1 hp' with rfl
                rcases hh.2 with h5 | ⟨h5, h6⟩
                · exact absurd h5 he
                · rcases h2 with h2 | h2 | h2
                  · exact absurd h2 h5
                  · exact absurd h2 h6
                  · exact large_iff.2 h2
              · cases hp'
            · refine Or.inr ⟨p, q, z, ?_, ?_, h3, h4⟩
              · simp only [freedBy]
                rw [if_pos ⟨hp0, Or.inr ⟨h1, h2⟩⟩, hf]
              · rw [Bool.eq_false_iff]
                intro hl
                obtain ⟨m', hm', he'⟩ := large_iff.1 hl
                exact h5 m' hm' he'
          · rcases hr with ⟨rfl, m, -⟩ | ⟨h0, -, -, m1, m2, m3⟩
            · refine ⟨fun _ _ _ h0 => absurd rfl h0, fun _ h0 => absurd rfl h0, fun b _ => by rw [m]⟩
            · refine ⟨fun q' hq' _ _ i hi hi' => ?_, fun hz _ i hi hi' => ?_, fun b hb => ?_⟩
              · exact m1 i hi (by rw [← huniq q' hq']; exact hi')
              · exact m2 hz i hi (hi' q hq)
              · rcases hb with hb | hb
                · exact absurd hb h0
                · exact m3 b hb

/-! ## Sequences of calls -/

/-- The main arena handed over at startup: aligned, at least a page, below 4 GB, page-sized end. -/
structure Start (c : Cfg) (base commit : Nat) : Prop where
  align : c.A ∣ base
  room : base + page ≤ commit
  pages : page ∣ commit
  span : commit < base + 2 ^ 32

theorem init_inv (hc : CfgOk c) {base commit : Nat} (h : Start c base commit) (brk : Bool) :
    Inv c (c.init base commit brk) [] [] := by
  have h1 := hc.mainFits
  have h2 := h.room
  refine ⟨fun _ => 0, (c.init base commit brk).arenas.map fun a => (a, []), ?_, fun k hk => (by cases hk), List.Perm.refl _, rfl⟩
  refine ⟨rfl, by simp [Cfg.init], ?_, ?_, by simp [regs, Cfg.init], fun b => List.Perm.refl _, List.Perm.refl _, rfl, rfl,
    fun m hm => (by cases hm), fun p h hp => (by cases hp), fun k hk => (by cases hk)⟩
  · intro g hg
    obtain ⟨a, ha, rfl⟩ := List.mem_map.1 hg
    rcases List.mem_singleton.1 ha with rfl
    refine ⟨?_, ?_, Nat.le_refl _, ?_, h.pages, h.span⟩
    · exact (Nat.dvd_add (Nat.dvd_add h.align hc.mainHdr) (A_inter hc))
    · simp only; omega
    · simp only; omega
  · intro g hg
    obtain ⟨a, ha, rfl⟩ := List.mem_map.1 hg
    rcases List.mem_singleton.1 ha with rfl
    exact ⟨rfl, rfl⟩

theorem trim_pos {n m : Nat} {y : Nat × Nat} {Q : List (Nat × Nat)}
    (h : n ≤ (y :: Q).length ∨ m ≤ ((y :: Q).map Prod.snd).sum) : trim n m (y :: Q) = trim n m Q := by
  conv_lhs => unfold trim
  rw [if_pos h]

theorem trim_neg {n m : Nat} {y : Nat × Nat} {Q : List (Nat × Nat)}
    (h : ¬ (n ≤ (y :: Q).length ∨ m ≤ ((y :: Q).map Prod.snd).sum)) : trim n m (y :: Q) = y :: Q := by
  conv_lhs => unfold trim
  rw [if_neg h]

theorem trim_append (n m : Nat) (x : Nat × Nat) : ∀ Q, trim n m (trim n m Q ++ [x]) = trim n m (Q ++ [x]) := by
  intro Q
  induction Q with
  | nil => rfl
  | cons y Q ih =>
    by_cases h : n ≤ (y :: Q).length ∨ m ≤ ((y :: Q).map Prod.snd).sum
    · rw [trim_pos h, ih, List.cons_append, trim_pos]
      simp only [List.length_cons, List.length_append, List.map_cons, List.map_append, List.sum_cons,
        List.sum_append, List.length_nil, List.map_nil, List.sum_nil] at h ⊢
      omega
    · rw [trim_neg h]

theorem trim_suffix (n m : Nat) : ∀ Q, trim n m Q <:+ Q := by
  intro Q
  induction Q with
  | nil => exact List.suffix_refl _
  | cons y Q ih =>
    unfold trim
    split
    · exact ih.trans (List.suffix_cons _ _)
    · exact List.suffix_refl _

/-- The queue is within its limits. -/
def Within (n m : Nat) (Q : List (Nat × Nat)) : Prop := Q.length < n ∧ (Q.map Prod.snd).sum < m

theorem trim_within (n m : Nat) : ∀ Q, trim n m Q = [] ∨ Within n m (trim n m Q) := by
  intro Q
  induction Q with
  | nil => exact Or.inl rfl
  | cons y Q ih =>
    unfold trim
    split
    · exact ih
    · next h => right; unfold Within; omega

theorem trim_longest {n m : Nat} {S : List (Nat × Nat)} (h : Within n m S) : ∀ Q, S <:+ Q → S <:+ trim n m Q := by
  intro Q
  induction Q with
  | nil => exact id
  | cons y Q ih =>
    intro hs
    unfold trim
    rcases List.suffix_cons_iff.1 hs with rfl | hs'
    · unfold Within at h
      rw [if_neg (by omega)]; exact List.suffix_refl _
    · split
      · exact ih hs'
      · exact hs

/-- The blocks given up that did not have a mapping of their own. -/
def small (F : List ((Nat × Nat) × Bool)) : List (Nat × Nat) := (F.filter fun x => !x.2).map Prod.fst

/-- The same blocks, the second time with at least the same sizes. -/
def Chunked (F H : List (Nat × Nat)) : Prop := List.Forall₂ (fun f h => f.1 = h.1 ∧ f.2 ≤ h.2) F H

theorem exec_inv (hc : CfgOk c) : ∀ {ops : List Op} {s : St} {L Q : List (Nat × Nat)}, Inv c s L Q →
    GoodRun c s L ops →
    ∃ s' L' F Q' H, exec c s L ops = some (s', L', F) ∧ Inv c s' L' Q' ∧ Chunked (small F) H ∧
      Q' <:+ Q ++ H ∧
      ((∀ op ∈ ops, op.avail) → (∃ Q0, Q = trim c.delayFrees c.delayMax Q0) →
        Q' = trim c.delayFrees c.delayMax (Q ++ H)) := by
  intro ops
  induction ops with
  | nil =>
    intro s L Q h _
    refine ⟨s, L, [], Q, [], rfl, h, List.Forall₂.nil, by simp, ?_⟩
    rintro - ⟨Q0, rfl⟩
    rw [List.append_nil]
    rcases trim_within c.delayFrees c.delayMax Q0 with e | e
    · rw [e]; rfl
    · have h1 := trim_longest e _ (List.suffix_refl _)
      exact h1.eq_of_length_le (trim_suffix _ _ _).length_le
  | cons op ops ih =>
    intro s L Q h hg
    obtain ⟨hg1, hg2⟩ := hg
    obtain ⟨s1, r, Q1, e1, i1, ⟨d, Q0, hd, hav, hq⟩, -⟩ := step_inv hc h hg1
    obtain ⟨s', L', F, Q', H, e2, i2, f2, q2, q3⟩ := ih i1 (hg2 _ _ _ e1)
    have he : exec c s L (op :: ops) =
        some (s', L', ((freedBy L op r).map fun x => (x, large s x.1)) ++ F) := by
      simp only [exec, e1, e2]
    rcases hq with ⟨rfl, hl⟩ | ⟨p, q, z, hfr, hl, hz, rfl⟩
    · refine ⟨s', L', _, Q', H, he, i2, ?_, ?_, ?_⟩
      · have : small (((freedBy L op r).map fun x => (x, large s x.1)) ++ F) = small F := by
          unfold small
          rw [List.filter_append, List.map_append]
          have : (((freedBy L op r).map fun x => (x, large s x.1)).filter fun x => !x.2) = [] := by
            rw [List.filter_eq_nil_iff]
            intro y hy
            obtain ⟨x, hx, rfl⟩ := List.mem_map.1 hy
            simp [hl x hx]
          rw [this]; rfl
        rw [this]; exact f2
      · rw [hd, List.append_assoc]
        exact q2.trans (List.suffix_append _ _)
      · intro ha hQ
        have hd0 := hav (ha op List.mem_cons_self)
        subst hd0
        rw [List.nil_append] at hd
        subst hd
        exact q3 (fun o ho => ha o (List.mem_cons_of_mem _ ho)) hQ
    · refine ⟨s', L', _, Q', (p, z) :: H, he, i2, ?_, ?_, ?_⟩
      · rw [hfr]
        have : small (([(p, q)].map fun x => (x, large s x.1)) ++ F) = (p, q) :: small F := by
          unfold small
          simp [hl]
        rw [this]
        exact List.Forall₂.cons ⟨rfl, hz⟩ f2
      · obtain ⟨t, ht⟩ := trim_suffix c.delayFrees c.delayMax (Q0 ++ [(p, z)])
        have h1 : trim c.delayFrees c.delayMax (Q0 ++ [(p, z)]) ++ H <:+ (d ++ Q0 ++ [(p, z)]) ++ H :=
          ⟨d ++ t, by rw [List.append_assoc, List.append_assoc, ← List.append_assoc t, ht]; simp⟩
        rw [hd]
        have := q2.trans h1
        simpa using this
      · intro ha hQ
        have hd0 := hav (ha op List.mem_cons_self)
        subst hd0
        rw [List.nil_append] at hd
        subst hd
        rw [q3 (fun o ho => ha o (List.mem_cons_of_mem _ ho)) ⟨_, rfl⟩]
        -- trimming early does not matter
        have key : ∀ (H X : List (Nat × Nat)), trim c.delayFrees c.delayMax (trim c.delayFrees c.delayMax X ++ H) =
            trim c.delayFrees c.delayMax (X ++ H) := by
          intro H
          induction H using List.reverseRecOn with
          | nil =>
            intro X
            rw [List.append_nil, List.append_nil]
            rcases trim_within c.delayFrees c.delayMax X with e | e
            · rw [e]; rfl
            · exact ((trim_longest e _ (List.suffix_refl _)).eq_of_length_le (trim_suffix _ _ _).length_le).symm
          | append_singleton H y ihH =>
            intro X
            rw [← List.append_assoc, ← List.append_assoc, ← trim_append, ihH, trim_append]
        rw [key]
        simp

/-- Every state after a sequence of calls from startup on. -/
theorem start_inv (hc : CfgOk c) {base commit : Nat} (hs : Start c base commit) {brk : Bool} {ops : List Op}
    (hg : GoodRun c (c.init base commit brk) [] ops) :
    ∃ s L F Q H, exec c (c.init base commit brk) [] ops = some (s, L, F) ∧ Inv c s L Q ∧ Chunked (small F) H ∧
      Q <:+ H ∧ ((∀ op ∈ ops, op.avail) → Q = trim c.delayFrees c.delayMax H) := by
  obtain ⟨s, L, F, Q, H, e, i, f, q1, q2⟩ := exec_inv hc (init_inv hc hs brk) hg
  exact ⟨s, L, F, Q, H, e, i, f, q1, fun h => q2 h ⟨[], rfl⟩⟩

/-! ## Checking concrete runs -/

/-- Executable form of `OsFor`. -/
def osForB (c : Cfg) (s : St) (os : Os) (req align0 : Nat) : Bool :=
  let size := alignedSize c req (effAlign c align0)
  (match os.ext, s.arenas.getLast? with
    | some e, some a => decide (a.next + (size + c.inter) ≤ e ∧ a.commit ≤ e ∧ page ∣ e ∧ e < a.base + 2 ^ 32 ∧
        ∀ x ∈ regs s.arenas s.maps, x.2 ≤ a.commit ∨ e ≤ x.1)
    | _, _ => true) &&
  (match os.arena with
    | some b => decide (page ∣ b ∧ ∀ x ∈ regs s.arenas s.maps, x.2 ≤ b ∨ b + arenaSize ≤ x.1)
    | none => true) &&
  decide (os.ext = none → os.arena = none → s.arenas.length = 1) &&
  (match os.map with
    | some b => decide (page ∣ b ∧ ∀ x ∈ regs s.arenas s.maps, x.2 ≤ b ∨ b + mapSize c size ≤ x.1)
    | none => true)

/-- Executable form of `Fits`. -/
def fitsB (c : Cfg) (req align0 : Nat) : Bool :=
  decide (req < 2 ^ 32 → (align0 = 0 ∨ isPow2 align0 = true) →
    alignUp req c.A + effAlign c align0 + c.A + c.inter + c.hs + c.mh + 2 * c.rz + c.hbr + page < 2 ^ 32)

/-- Executable form of `Good`. -/
def goodB (c : Cfg) (s : St) (L : List (Nat × Nat)) : Op → Bool
  | .alloc os req align _ => fitsB c req align && osForB c s os req align
  | .free _ _ => true
  | .realloc os _ size _ => fitsB c size 0 && osForB c s os size 0
  | .store a _ => L.any fun x => x.1 ≤ a ∧ a < x.1 + x.2

/-- Executable form of `GoodRun`. -/
def goodRunB (c : Cfg) : St → List (Nat × Nat) → List Op → Bool
  | _, _, [] => true
  | s, L, op :: ops => goodB c s L op &&
    match step c s op with
    | none => true
    | some (s', r, _) => goodRunB c s' (ledger L op r) ops

theorem osForB_spec {os : Os} {req align0 : Nat} (h : osForB c s os req align0 = true) :
    OsFor c s os req align0 := by
  unfold osForB at h
  simp only [Bool.and_eq_true, decide_eq_true_eq] at h
  obtain ⟨⟨⟨h1, h2⟩, h3⟩, h4⟩ := h
  refine ⟨⟨fun e he a ha => ?_, fun b hb => ?_, h3⟩, fun b hb => ?_⟩
  · rw [he, ha] at h1
    simp only [decide_eq_true_eq] at h1
    exact h1
  · rw [hb] at h2
    simp only [decide_eq_true_eq] at h2
    exact h2
  · rw [hb] at h4
    simp only [decide_eq_true_eq] at h4
    exact h4

theorem fitsB_spec {req align0 : Nat} (h : fitsB c req align0 = true) : Fits c req align0 := by
  unfold fitsB at h
  unfold Fits
  exact of_decide_eq_true h

theorem goodB_spec {op : Op} (h : goodB c s L op = true) : Good c s L op := by
  cases op with
  | alloc os req align zero =>
    simp only [goodB, Bool.and_eq_true] at h
    exact ⟨fitsB_spec h.1, osForB_spec h.2⟩
  | free os p => trivial
  | realloc os p size f =>
    simp only [goodB, Bool.and_eq_true] at h
    exact ⟨fitsB_spec h.1, osForB_spec h.2⟩
  | store a v =>
    simp only [goodB, List.any_eq_true, decide_eq_true_eq] at h
    exact h

theorem goodRunB_spec : ∀ {ops : List Op} {s : St} {L : List (Nat × Nat)},
    goodRunB c s L ops = true → GoodRun c s L ops := by
  intro ops
  induction ops with
  | nil => intro s L _; trivial
  | cons op ops ih =>
    intro s L h
    simp only [goodRunB, Bool.and_eq_true] at h
    refine ⟨goodB_spec h.1, fun s' r ok he => ?_⟩
    have := h.2
    rw [he] at this
    exact ih this

/-- The usual 64-bit configuration with a short quarantine. -/
def demo : Cfg :=
  { x64 := true, rz := 16, shared := false, delayFrees := 3, delayMax := 4096, mainHdr := 288, subHdr := 96 }

/-- A run with all kinds of calls: an aligned block, an invalid free, a large block, growth by a new
arena, and a realloc that moves. -/
def demoRun : List Op :=
  let os : Os := { arena := some 0x20000000 }
  let os' : Os := { arena := some 0x30000000 }
  [.alloc os 100 0 false, .alloc os 10 64 false, .alloc os 50 0 true, .store 65904 7,
   .free { } 65904, .free { } 65904, .alloc { os with map := some 0x10000000 } 200000 0 false,
   .alloc os 4000 0 false, .alloc os' 4000 0 false,
   .realloc os' 66240 5000 { }, .free { } 0x10000050, .free { } 66096]

end Verif.Al
