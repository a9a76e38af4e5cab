import Verif.RedBlackBal

/-! # C15-C17: theorems about the interval tree -/
namespace Verif.RB

/-- What every history of operations maintains: red-black, ordered, only proper intervals, no two
of them overlapping. -/
structure Valid (t : Tree) : Prop where
  inv : Inv t
  ord : Ordered t
  good : ∀ e ∈ toList t, Good e
  disj : ∀ a ∈ toList t, ∀ b ∈ toList t, a ≠ b → ¬ Overlap a b

theorem Valid.nil : Valid .nil :=
  ⟨⟨trivial, ⟨0, rfl⟩, rfl⟩, by simp [Ordered, toList], by simp [toList], by simp [toList]⟩

theorem overlap_iff {a b : Ent} (ha : 0 < a.size) (hb : 0 < b.size) :
    Overlap a b ↔ a.base < b.base + b.size ∧ b.base < a.base + a.size := by
  constructor
  · rintro ⟨x, h1, h2⟩; unfold Covers at h1 h2; omega
  · intro h
    refine ⟨max a.base b.base, ?_, ?_⟩ <;> unfold Covers <;> omega

theorem Overlap.symm {a b : Ent} (h : Overlap a b) : Overlap b a := by
  obtain ⟨x, h1, h2⟩ := h; exact ⟨x, h2, h1⟩

/-- The parts of an ordered tree of disjoint intervals. -/
theorem Valid.parts {c : Color} {l r : Tree} {e : Ent}
    (ho : Ordered (.node c l e r)) (hg : ∀ x ∈ toList (.node c l e r), Good x)
    (hd : ∀ a ∈ toList (.node c l e r), ∀ b ∈ toList (.node c l e r), a ≠ b → ¬ Overlap a b) :
    Ordered l ∧ Ordered r ∧ (∀ x ∈ toList l, Good x) ∧ (∀ x ∈ toList r, Good x) ∧ Good e ∧
    (∀ a ∈ toList l, ∀ b ∈ toList l, a ≠ b → ¬ Overlap a b) ∧
    (∀ a ∈ toList r, ∀ b ∈ toList r, a ≠ b → ¬ Overlap a b) ∧
    (∀ x ∈ toList l, x.base + x.size ≤ e.base) ∧ (∀ x ∈ toList r, e.base + e.size ≤ x.base) := by
  unfold Ordered at ho
  rw [toList, List.pairwise_append, List.pairwise_cons] at ho
  obtain ⟨h1, ⟨h2, h3⟩, h4⟩ := ho
  have ge := hg e (by simp [toList])
  refine ⟨h1, h3, fun x hx => hg x (by simp [toList, hx]), fun x hx => hg x (by simp [toList, hx]),
    ge, fun a ha b hb => hd a (by simp [toList, ha]) b (by simp [toList, hb]),
    fun a ha b hb => hd a (by simp [toList, ha]) b (by simp [toList, hb]), ?_, ?_⟩
  · intro x hx
    have hlt := h4 x hx e (by simp)
    have gx := hg x (by simp [toList, hx])
    have := hd x (by simp [toList, hx]) e (by simp [toList]) (by intro h; rw [h] at hlt; omega)
    rw [overlap_iff gx.1 ge.1] at this
    omega
  · intro x hx
    have hlt := h2 x hx
    have gx := hg x (by simp [toList, hx])
    have := hd x (by simp [toList, hx]) e (by simp [toList]) (by intro h; rw [h] at hlt; omega)
    rw [overlap_iff gx.1 ge.1] at this
    omega

/-- A new interval that overlaps nothing is not in the way of anything met on the way down. -/
theorem inTheWay_iff {n e : Ent} (hn : Good n) (he : Good e) :
    inTheWay true n e = true ↔ Overlap n e := by
  rw [overlap_iff hn.1 he.1]
  unfold inTheWay
  rw [hn.last, he.last]
  have := hn.1
  have := he.1
  simp
  omega

/-- In a debug build the descent meets an overlapping interval if there is one. -/
theorem btInsert_complete {n : Ent} (hn : Good n) : ∀ (t : Tree) (k k' : List Frame), Ordered t →
    (∀ x ∈ toList t, Good x) → (∀ a ∈ toList t, ∀ b ∈ toList t, a ≠ b → ¬ Overlap a b) →
    btInsert true n t k = .inr k' → ∀ e ∈ toList t, ¬ Overlap n e := by
  intro t
  induction t with
  | nil => simp [toList]
  | node c l e r ihl ihr =>
    intro k k' ho hg hd h
    obtain ⟨o1, o2, g1, g2, ge, d1, d2, b1, b2⟩ := Valid.parts ho hg hd
    unfold btInsert at h
    split at h
    · simp at h
    rename_i hc
    rw [inTheWay_iff hn ge] at hc
    have hc' := hc
    rw [overlap_iff hn.1 ge.1] at hc'
    have hn1 := hn.1
    split at h
    · rename_i hlt
      intro x hx
      rw [toList, List.mem_append, List.mem_cons] at hx
      rcases hx with hx | rfl | hx
      · exact ihl _ _ o1 g1 d1 h x hx
      · exact hc
      · have := b2 x hx
        rw [overlap_iff hn.1 (g2 x hx).1]
        omega
    · intro x hx
      rw [toList, List.mem_append, List.mem_cons] at hx
      rcases hx with hx | rfl | hx
      · have := b1 x hx
        rw [overlap_iff hn.1 (g1 x hx).1]
        omega
      · exact hc
      · exact ihr _ _ o2 g2 d2 h x hx

/-- Contents and order after an insertion that was not refused. -/
theorem insert_new {d : Bool} {n : Ent} {t t' : Tree} (hv : Valid t) (hn : Good n)
    (h : insert d n t = some (t', none)) (hno : ∀ e ∈ toList t, ¬ Overlap n e) :
    Valid t' ∧ ∀ x, x ∈ toList t' ↔ x = n ∨ x ∈ toList t := by
  obtain ⟨r, hr, hi⟩ := insert_inv d n hv.inv
  rw [h] at hr
  obtain rfl : (t', none) = r := by simpa using hr
  unfold insert at h
  split at h
  · simp at h
  rename_i k hk
  simp only [Option.map_eq_some_iff, Prod.mk.injEq, and_true] at h
  obtain ⟨t0, h1, h2⟩ := h
  obtain ⟨a, b, e1, e2, e3, -, e5⟩ := btInsert_inr t [] k hv.ord hk
  obtain ⟨q1, q2⟩ := e5 hn hv.good
  have hl : toList t' = a ++ n :: b := by
    rw [← h2, toList_paint, insFix_toList _ _ _ h1, toList_plug, e2, e3]
    simp [toList, ctxL, ctxR]
  have hmem : ∀ x, x ∈ toList t' ↔ x = n ∨ x ∈ toList t := by
    intro x; rw [hl, e1]; simp only [List.mem_append, List.mem_cons]
    constructor
    · rintro (h | h | h)
      · exact .inr (.inl h)
      · exact .inl h
      · exact .inr (.inr h)
    · rintro (h | h | h)
      · exact .inr (.inl h)
      · exact .inl h
      · exact .inr (.inr h)
  have ho := hv.ord
  unfold Ordered at ho
  rw [e1, List.pairwise_append] at ho
  refine ⟨⟨hi, ?_, ?_, ?_⟩, hmem⟩
  · unfold Ordered
    rw [hl, List.pairwise_append, List.pairwise_cons]
    refine ⟨ho.1, ⟨q2, ho.2.1⟩, ?_⟩
    intro x hx y hy
    rcases List.mem_cons.1 hy with rfl | hy
    · exact q1 x hx
    · exact ho.2.2 x hx y hy
  · intro x hx
    rcases (hmem x).1 hx with rfl | hx
    · exact hn
    · exact hv.good x hx
  · intro x hx y hy hne
    rcases (hmem x).1 hx with rfl | hx <;> rcases (hmem y).1 hy with rfl | hy
    · exact absurd rfl hne
    · exact hno y hy
    · exact fun h => hno x hx h.symm
    · exact hv.disj x hx y hy hne

/-! ## C15 -/

/-- C15: inserting an interval that overlaps no stored one adds exactly it (debug and release
builds). -/
theorem C15_insert_fresh {d : Bool} {n : Ent} {t : Tree} (hv : Valid t) (hn : Good n)
    (hno : ∀ e ∈ toList t, ¬ Overlap n e) :
    ∃ t', insert d n t = some (t', none) ∧ Valid t' ∧
      ∀ x, x ∈ toList t' ↔ x = n ∨ x ∈ toList t := by
  obtain ⟨⟨t', r⟩, hr, -⟩ := insert_inv d n hv.inv
  have : r = none := by
    cases r with
    | none => rfl
    | some e =>
      exfalso
      unfold insert at hr
      split at hr
      · rename_i e' he
        obtain ⟨hm, hw⟩ := btInsert_inl t [] e' he
        apply hno e' hm
        cases d
        · have hb : n.base = e'.base := by simpa [inTheWay] using hw
          exact ⟨n.base, ⟨by omega, by have := hn.1; omega⟩,
            ⟨by omega, by have := (hv.good e' hm).1; omega⟩⟩
        · exact (inTheWay_iff hn (hv.good e' hm)).1 hw
      · simp at hr
  subst this
  obtain ⟨h1, h2⟩ := insert_new hv hn hr hno
  exact ⟨t', hr, h1, h2⟩

/-- C15: a debug build refuses an overlapping interval, leaves the tree alone and returns an
interval that overlaps. -/
theorem C15_insert_overlapping {n : Ent} {t : Tree} (hv : Valid t) (hn : Good n)
    (hov : ∃ e ∈ toList t, Overlap n e) :
    ∃ e, insert true n t = some (t, some e) ∧ e ∈ toList t ∧ Overlap n e := by
  unfold insert
  split
  · rename_i e he
    obtain ⟨hm, hw⟩ := btInsert_inl t [] e he
    exact ⟨e, rfl, hm, (inTheWay_iff hn (hv.good e hm)).1 hw⟩
  · rename_i k hk
    obtain ⟨e, hm, ho⟩ := hov
    exact absurd ho (btInsert_complete hn t [] k hv.ord hv.good hv.disj hk e hm)

/-- C15: deleting by base removes exactly the interval with that base. -/
theorem C15_delete (base : Nat) {t : Tree} (hv : Valid t) :
    ∃ t', delete base t = some t' ∧ Valid t' ∧
      ∀ x, x ∈ toList t' ↔ x ∈ toList t ∧ x.base ≠ base := by
  obtain ⟨t', h1, h2⟩ := delete_inv base hv.inv
  have hl := deleteGo_toList base t [] t' hv.ord h1
  simp only [ctxL, ctxR, List.nil_append, List.append_nil] at hl
  have hmem : ∀ x, x ∈ toList t' ↔ x ∈ toList t ∧ x.base ≠ base := by
    intro x; rw [hl, List.mem_filter]; simp
  refine ⟨t', h1, ⟨h2, ?_, fun e he => hv.good e ((hmem e).1 he).1,
    fun a ha b hb => hv.disj a ((hmem a).1 ha).1 b ((hmem b).1 hb).1⟩, hmem⟩
  unfold Ordered
  rw [hl]
  exact List.Pairwise.filter _ hv.ord

/-- C15: the lookup by address returns exactly the stored interval containing the address. -/
theorem C15_in_node (a : Nat) (e : Ent) {t : Tree} (hv : Valid t) :
    inNode a t = some e ↔ e ∈ toList t ∧ Covers e a := by
  obtain ⟨-, ho, hg, hd⟩ := hv
  induction t with
  | nil => simp [inNode, toList]
  | node c l n r ihl ihr =>
    obtain ⟨o1, o2, g1, g2, gn, d1, d2, b1, b2⟩ := Valid.parts ho hg hd
    unfold inNode
    rw [gn.last, toList, List.mem_append, List.mem_cons]
    unfold Covers at *
    split
    · rename_i h
      constructor
      · intro he
        obtain rfl : n = e := by simpa using he
        exact ⟨by simp, h⟩
      · rintro ⟨he | rfl | he, hc⟩
        · have := b1 e he; omega
        · rfl
        · have := b2 e he; omega
    · rename_i h
      split
      · rw [ihl o1 g1 d1]
        constructor
        · rintro ⟨he, hc⟩; exact ⟨.inl he, hc⟩
        · rintro ⟨he | rfl | he, hc⟩
          · exact ⟨he, hc⟩
          · omega
          · have := b2 e he; have := gn.1; omega
      · rw [ihr o2 g2 d2]
        constructor
        · rintro ⟨he, hc⟩; exact ⟨.inr (.inr he), hc⟩
        · rintro ⟨he | rfl | he, hc⟩
          · have := b1 e he; omega
          · omega
          · exact ⟨he, hc⟩

/-- C15: an address in no stored interval is not found. -/
theorem C15_in_node_none (a : Nat) {t : Tree} (hv : Valid t) :
    inNode a t = none ↔ ∀ e ∈ toList t, ¬ Covers e a := by
  constructor
  · intro h e he hc
    have := (C15_in_node a e hv).2 ⟨he, hc⟩
    rw [h] at this; simp at this
  · intro h
    cases hi : inNode a t with
    | none => rfl
    | some e =>
      obtain ⟨h1, h2⟩ := (C15_in_node a e hv).1 hi
      exact absurd h2 (h e h1)

/-- C15: the lookup by base returns exactly the stored interval with that base. -/
theorem C15_find (b : Nat) (e : Ent) {t : Tree} (hv : Valid t) :
    find b t = some e ↔ e ∈ toList t ∧ e.base = b := by
  have ho := hv.ord
  clear hv
  induction t with
  | nil => simp [find, toList]
  | node c l n r ihl ihr =>
    unfold Ordered at ho
    rw [toList, List.pairwise_append, List.pairwise_cons] at ho
    obtain ⟨h1, ⟨h2, h3⟩, h4⟩ := ho
    unfold find
    rw [toList, List.mem_append, List.mem_cons]
    split
    · rename_i h
      constructor
      · intro he
        obtain rfl : n = e := by simpa using he
        exact ⟨by simp, h.symm⟩
      · rintro ⟨he | rfl | he, hc⟩
        · have := h4 e he n (by simp); omega
        · rfl
        · have := h2 e he; omega
    · split
      · have q := ihl h1
        refine Iff.trans q ?_
        constructor
        · rintro ⟨he, hc⟩; exact ⟨.inl he, hc⟩
        · rintro ⟨he | rfl | he, hc⟩
          · exact ⟨he, hc⟩
          · omega
          · have := h2 e he; omega
      · have q := ihr h3
        refine Iff.trans q ?_
        constructor
        · rintro ⟨he, hc⟩; exact ⟨.inr (.inr he), hc⟩
        · rintro ⟨he | rfl | he, hc⟩
          · have := h4 e he n (by simp); omega
          · omega
          · exact ⟨he, hc⟩

/-- C15: the range lookup returns a stored interval meeting `[s, t)`, and nothing only if there is
none. -/
theorem C15_overlaps (s e : Nat) (hse : s < e) {t : Tree} (hv : Valid t) :
    (∀ x, overlapsNode s e t = some x → x ∈ toList t ∧ ∃ a, s ≤ a ∧ a < e ∧ Covers x a) ∧
    (overlapsNode s e t = none → ∀ x ∈ toList t, ∀ a, s ≤ a → a < e → ¬ Covers x a) := by
  obtain ⟨-, ho, hg, hd⟩ := hv
  induction t with
  | nil => simp [overlapsNode, toList]
  | node c l n r ihl ihr =>
    obtain ⟨o1, o2, g1, g2, gn, d1, d2, b1, b2⟩ := Valid.parts ho hg hd
    unfold overlapsNode
    rw [gn.last]
    have := gn.1
    split
    · rename_i h
      refine ⟨?_, by simp⟩
      intro x hx
      obtain rfl : n = x := by simpa using hx
      refine ⟨by simp [toList], max s n.base, by omega, by omega, ?_⟩
      unfold Covers; omega
    · rename_i h
      split
      · obtain ⟨p1, p2⟩ := ihl o1 g1 d1
        refine ⟨fun x hx => ⟨by simp [toList, (p1 x hx).1], (p1 x hx).2⟩, ?_⟩
        intro hnone x hx a h1 h2 hc
        rw [toList, List.mem_append, List.mem_cons] at hx
        unfold Covers at hc
        rcases hx with hx | rfl | hx
        · exact p2 hnone x hx a h1 h2 hc
        · omega
        · have := b2 x hx; omega
      · obtain ⟨p1, p2⟩ := ihr o2 g2 d2
        refine ⟨fun x hx => ⟨by simp [toList, (p1 x hx).1], (p1 x hx).2⟩, ?_⟩
        intro hnone x hx a h1 h2 hc
        rw [toList, List.mem_append, List.mem_cons] at hx
        unfold Covers at hc
        rcases hx with hx | rfl | hx
        · have := b1 x hx; omega
        · omega
        · exact p2 hnone x hx a h1 h2 hc

/-- C15: the lookup by client data finds a stored interval with that data iff there is one. -/
theorem C15_find_client (client : Nat) (t : Tree) :
    (∀ e, findClient client t = some e → e ∈ toList t ∧ e.client = client) ∧
    (findClient client t = none → ∀ e ∈ toList t, e.client ≠ client) := by
  induction t with
  | nil => simp [findClient, toList]
  | node c l n r ihl ihr =>
    unfold findClient
    split
    · rename_i h
      exact ⟨fun e he => by obtain rfl : n = e := by simpa using he
                            exact ⟨by simp [toList], h⟩, by simp⟩
    · rename_i h
      split
      · rename_i e' he'
        refine ⟨fun e he => ?_, by simp⟩
        obtain rfl : e' = e := by simpa using he
        have := ihl.1 _ he'
        exact ⟨by simp [toList, this.1], this.2⟩
      · rename_i hl
        refine ⟨fun e he => ⟨by simp [toList, (ihr.1 e he).1], (ihr.1 e he).2⟩, ?_⟩
        intro hr e he
        rw [toList, List.mem_append, List.mem_cons] at he
        rcases he with he | rfl | he
        · exact ihl.2 hl e he
        · exact h
        · exact ihr.2 hr e he

/-- Visit a list in order until the callback says stop (spec of iteration). -/
def visit {σ : Type} (cb : Ent → σ → σ × Bool) : List Ent → σ → σ × Bool
  | [], s => (s, true)
  | e :: l, s => match cb e s with
    | (s, false) => (s, false)
    | (s, true) => visit cb l s

theorem visit_append {σ : Type} (cb : Ent → σ → σ × Bool) (a b : List Ent) (s : σ) :
    visit cb (a ++ b) s = match visit cb a s with
      | (s, false) => (s, false)
      | (s, true) => visit cb b s := by
  induction a generalizing s with
  | nil => rfl
  | cons e a ih =>
    simp only [List.cons_append, visit]
    rcases cb e s with ⟨s', _ | _⟩
    · rfl
    · exact ih s'

/-- C15: iteration visits the stored intervals in increasing order, each once, until the callback
stops it. -/
theorem C15_iterate {σ : Type} (cb : Ent → σ → σ × Bool) (t : Tree) (hv : Valid t) (s : σ) :
    ∃ l : List Ent, iterate cb t s = visit cb l s ∧ (∀ e, e ∈ l ↔ e ∈ toList t) ∧
      l.Pairwise (fun a b => a.base < b.base) := by
  refine ⟨toList t, ?_, fun _ => Iff.rfl, hv.ord⟩
  clear hv
  induction t generalizing s with
  | nil => rfl
  | node c l e r ihl ihr =>
    simp only [iterate, toList]
    rw [ihl s, visit_append]
    rcases visit cb (toList l) s with ⟨s', _ | _⟩
    · rfl
    · simp only [visit]
      rcases cb e s' with ⟨s'', _ | _⟩
      · rfl
      · exact ihr s''

/-- One operation on the tree. -/
inductive Op
  | ins (e : Ent)
  | del (base : Nat)
  deriving Repr

/-- Run operations on the model. -/
def run (d : Bool) : List Op → Tree → Option Tree
  | [], t => some t
  | .ins e :: ops, t => (insert d e t).bind fun r => run d ops r.1
  | .del b :: ops, t => (delete b t).bind fun t => run d ops t

/-- The specification: a set of intervals; an overlapping insertion is refused. -/
def specStep (S : Ent → Prop) : Op → (Ent → Prop)
  | .ins e => fun x => S x ∨ (x = e ∧ ∀ y, S y → ¬ Overlap e y)
  | .del b => fun x => S x ∧ x.base ≠ b

/-- C15: after any history of insertions of proper intervals and deletions, a debug build's tree
holds exactly the intervals of the specification, is ordered and balanced, and no step got
stuck. -/
theorem C15_history (ops : List Op) (hops : ∀ e, Op.ins e ∈ ops → Good e) :
    ∃ t, run true ops .nil = some t ∧ Valid t ∧
      ∀ x, x ∈ toList t ↔ ops.foldl specStep (fun _ => False) x := by
  suffices ∀ (t : Tree) (S : Ent → Prop), Valid t → (∀ x, x ∈ toList t ↔ S x) →
      ∃ t', run true ops t = some t' ∧ Valid t' ∧ ∀ x, x ∈ toList t' ↔ ops.foldl specStep S x from
    this .nil _ Valid.nil (by simp [toList])
  induction ops with
  | nil => intro t S hv hS; exact ⟨t, rfl, hv, hS⟩
  | cons op ops ih =>
    intro t S hv hS
    have ih' := ih (fun e he => hops e (List.mem_cons_of_mem _ he))
    cases op with
    | ins e =>
      have hg := hops e (by simp)
      by_cases hov : ∃ y ∈ toList t, Overlap e y
      · obtain ⟨y, h1, h2, h3⟩ := C15_insert_overlapping hv hg hov
        obtain ⟨t', r1, r2, r3⟩ := ih' t (specStep S (.ins e)) hv (fun x => by
          rw [hS]
          constructor
          · exact .inl
          · rintro (h | ⟨rfl, h⟩)
            · exact h
            · obtain ⟨z, hz, hzo⟩ := hov
              exact absurd hzo (h z ((hS z).1 hz)))
        exact ⟨t', by simp [run, h1, r1], r2, r3⟩
      · obtain ⟨t1, h1, h2, h3⟩ := C15_insert_fresh (d := true) hv hg
          (fun y hy ho => hov ⟨y, hy, ho⟩)
        obtain ⟨t', r1, r2, r3⟩ := ih' t1 (specStep S (.ins e)) h2 (fun x => by
          rw [h3, hS]
          constructor
          · rintro (rfl | h)
            · exact .inr ⟨rfl, fun y hy ho => hov ⟨y, (hS y).2 hy, ho⟩⟩
            · exact .inl h
          · rintro (h | ⟨rfl, _⟩)
            · exact .inr h
            · exact .inl rfl)
        exact ⟨t', by simp [run, h1, r1], r2, r3⟩
    | del b =>
      obtain ⟨t1, h1, h2, h3⟩ := C15_delete b hv
      obtain ⟨t', r1, r2, r3⟩ := ih' t1 (specStep S (.del b)) h2 (fun x => by
        rw [h3, hS]; rfl)
      exact ⟨t', by simp [run, h1, r1], r2, r3⟩

/-- A release build refuses only an interval with an already stored *base*. -/
theorem C15_release_overlap :
    ∃ t, run false [.ins ⟨10, 10, 1⟩, .ins ⟨15, 10, 2⟩] .nil = some t ∧
      toList t = [⟨10, 10, 1⟩, ⟨15, 10, 2⟩] ∧ Overlap ⟨10, 10, 1⟩ ⟨15, 10, 2⟩ :=
  ⟨_, rfl, rfl, 15, by unfold Covers; decide, by unfold Covers; decide⟩

/-- C15 for release builds, for histories that never insert an overlapping interval.
Full statement: `C15_history` with `run false`; false by `C15_release_overlap`. -/
theorem C15_history_release_partial (ops : List Op) (hops : ∀ e, Op.ins e ∈ ops → Good e)
    (hno : ∀ p e q, ops = p ++ Op.ins e :: q → ∀ y, p.foldl specStep (fun _ => False) y →
      ¬ Overlap e y) :
    ∃ t, run false ops .nil = some t ∧ Valid t ∧
      ∀ x, x ∈ toList t ↔ ops.foldl specStep (fun _ => False) x := by
  suffices ∀ (t : Tree) (S : Ent → Prop), Valid t → (∀ x, x ∈ toList t ↔ S x) →
      (∀ p e q, ops = p ++ Op.ins e :: q → ∀ y, p.foldl specStep S y → ¬ Overlap e y) →
      ∃ t', run false ops t = some t' ∧ Valid t' ∧ ∀ x, x ∈ toList t' ↔ ops.foldl specStep S x from
    this .nil _ Valid.nil (by simp [toList]) hno
  clear hno
  induction ops with
  | nil => intro t S hv hS _; exact ⟨t, rfl, hv, hS⟩
  | cons op ops ih =>
    intro t S hv hS hno
    have ih' := ih (fun e he => hops e (List.mem_cons_of_mem _ he))
    have hno' : ∀ p e q, ops = p ++ Op.ins e :: q → ∀ y, p.foldl specStep (specStep S op) y →
        ¬ Overlap e y := fun p e q h y hy => hno (op :: p) e q (by rw [h]; rfl) y hy
    cases op with
    | ins e =>
      have hg := hops e (by simp)
      have hov := hno [] e ops rfl
      obtain ⟨t1, h1, h2, h3⟩ := C15_insert_fresh (d := false) hv hg
        (fun y hy => hov y ((hS y).1 hy))
      obtain ⟨t', r1, r2, r3⟩ := ih' t1 (specStep S (.ins e)) h2 (fun x => by
        rw [h3, hS]
        constructor
        · rintro (rfl | h)
          · exact .inr ⟨rfl, hov⟩
          · exact .inl h
        · rintro (h | ⟨rfl, _⟩)
          · exact .inr h
          · exact .inl rfl) hno'
      exact ⟨t', by simp [run, h1, r1], r2, r3⟩
    | del b =>
      obtain ⟨t1, h1, h2, h3⟩ := C15_delete b hv
      obtain ⟨t', r1, r2, r3⟩ := ih' t1 (specStep S (.del b)) h2 (fun x => by
        rw [h3, hS]; rfl) hno'
      exact ⟨t', by simp [run, h1, r1], r2, r3⟩

/-- Setting the client data changes that field of that interval only. -/
theorem C15_set_client (b cl : Nat) {t : Tree} (hv : Valid t) :
    Valid (setClient b cl t) ∧ ∀ x, x ∈ toList (setClient b cl t) ↔
      (x ∈ toList t ∧ x.base ≠ b) ∨ (∃ y ∈ toList t, y.base = b ∧ x = { y with client := cl }) := by
  have hl : ∀ t : Tree, Ordered t → toList (setClient b cl t) =
      (toList t).map fun e => if e.base = b then { e with client := cl } else e := by
    intro t
    induction t with
    | nil => intro _; rfl
    | node c l e r ihl ihr =>
      intro ho
      unfold Ordered at ho
      rw [toList, List.pairwise_append, List.pairwise_cons] at ho
      obtain ⟨h1, ⟨h2, h3⟩, h4⟩ := ho
      have same : ∀ l : List Ent, (∀ x ∈ l, x.base ≠ b) →
          (l.map fun e => if e.base = b then { e with client := cl } else e) = l := by
        intro l hl
        rw [List.map_congr_left (g := id)]
        · simp
        · intro x hx; simp [hl x hx]
      unfold setClient
      split
      · rename_i h
        simp only [toList, List.map_append, List.map_cons]
        rw [same _ (fun x hx => by have := h4 x hx e (by simp); omega),
          same _ (fun x hx => by have := h2 x hx; omega), if_pos h.symm]
      · rename_i h
        split
        · simp only [toList, List.map_append, List.map_cons]
          rw [ihl h1, same (toList r) (fun x hx => by have := h2 x hx; omega), if_neg (by omega)]
        · simp only [toList, List.map_append, List.map_cons]
          rw [ihr h3, same (toList l) (fun x hx => by have := h4 x hx e (by simp); omega),
            if_neg (by omega)]
  have hl' := hl t hv.ord
  have hmem : ∀ x, x ∈ toList (setClient b cl t) ↔
      (x ∈ toList t ∧ x.base ≠ b) ∨ (∃ y ∈ toList t, y.base = b ∧ x = { y with client := cl }) := by
    intro x
    rw [hl', List.mem_map]
    constructor
    · rintro ⟨y, hy, rfl⟩
      by_cases h : y.base = b
      · rw [if_pos h]; exact .inr ⟨y, hy, h, rfl⟩
      · rw [if_neg h]; exact .inl ⟨hy, h⟩
    · rintro (⟨h1, h2⟩ | ⟨y, h1, h2, rfl⟩)
      · exact ⟨x, h1, by rw [if_neg h2]⟩
      · exact ⟨y, h1, by rw [if_pos h2]⟩
  have hsrc : ∀ x ∈ toList (setClient b cl t), ∃ y ∈ toList t, y.base = x.base ∧
      y.size = x.size := by
    intro x hx
    rcases (hmem x).1 hx with ⟨h, _⟩ | ⟨y, h, _, rfl⟩
    · exact ⟨x, h, rfl, rfl⟩
    · exact ⟨y, h, rfl, rfl⟩
  have hcol : ∀ t : Tree, (setClient b cl t).color = t.color := by
    intro t; cases t with
    | nil => rfl
    | node c l e r =>
      unfold setClient
      split
      · rfl
      · split <;> rfl
  have hBH : ∀ (t : Tree) n, t.BH n → (setClient b cl t).BH n := by
    intro t
    induction t with
    | nil => intro n h; exact h
    | node c l e r ihl ihr =>
      intro n h
      obtain ⟨m, e1, h1, h2⟩ := BH_node_inv h
      subst e1
      unfold setClient
      split
      · exact BH_node h1 h2
      · split
        · exact BH_node (ihl _ h1) h2
        · exact BH_node h1 (ihr _ h2)
  have hNR : ∀ t : Tree, t.NR → (setClient b cl t).NR := by
    intro t
    induction t with
    | nil => exact id
    | node c l e r ihl ihr =>
      intro h
      unfold setClient
      split
      · exact h
      · split
        · exact ⟨ihl h.1, h.2.1, fun hc => by rw [hcol]; exact h.2.2 hc⟩
        · exact ⟨h.1, ihr h.2.1, fun hc => by rw [hcol]; exact h.2.2 hc⟩
  refine ⟨⟨⟨hNR t hv.inv.1, ?_, by rw [hcol]; exact hv.inv.2.2⟩, ?_, ?_, ?_⟩, hmem⟩
  · obtain ⟨n, hn⟩ := hv.inv.2.1
    exact ⟨n, hBH t n hn⟩
  · unfold Ordered
    rw [hl', List.pairwise_map]
    refine List.Pairwise.imp (fun {a c} h => ?_) hv.ord
    split <;> split <;> exact h
  · intro x hx
    obtain ⟨y, h1, h2, h3⟩ := hsrc x hx
    have := hv.good y h1
    unfold Good at *
    omega
  · intro x hx z hz hne
    obtain ⟨y, h1, h2, h3⟩ := hsrc x hx
    obtain ⟨w, g1, g2, g3⟩ := hsrc z hz
    have hov : Overlap x z → Overlap y w := by
      rintro ⟨a, c1, c2⟩; unfold Covers at *; exact ⟨a, by unfold Covers; omega, by unfold Covers; omega⟩
    intro ho
    by_cases hyw : y = w
    · subst hyw
      apply hne
      rcases (hmem x).1 hx with ⟨p1, p2⟩ | ⟨x', p1, p2, rfl⟩ <;>
        rcases (hmem z).1 hz with ⟨r1, r2⟩ | ⟨z', r1, r2, rfl⟩
      · have e1 : y = x := by
          have := (C15_find x.base y hv).2 ⟨h1, h2⟩
          rw [(C15_find x.base x hv).2 ⟨p1, rfl⟩] at this; simpa using this.symm
        have e2 : y = z := by
          have := (C15_find z.base y hv).2 ⟨h1, g2⟩
          rw [(C15_find z.base z hv).2 ⟨r1, rfl⟩] at this; simpa using this.symm
        rw [← e1, e2]
      · simp only at g2 h2; omega
      · simp only at g2 h2; omega
      · have : x' = z' := by
          have := (C15_find b x' hv).2 ⟨p1, p2⟩
          rw [(C15_find b z' hv).2 ⟨r1, r2⟩] at this; simpa using this.symm
        rw [this]
    · exact hv.disj y h1 w g1 hyw (hov ho)

/-- A non-trivial history: five insertions in unhelpful order, one refused overlap, two
deletions. -/
example : ∃ t, run true [.ins ⟨10, 5, 1⟩, .ins ⟨20, 5, 2⟩, .ins ⟨30, 5, 3⟩, .ins ⟨40, 5, 4⟩,
    .ins ⟨12, 1, 9⟩, .ins ⟨50, 5, 5⟩, .del 20, .del 40] .nil = some t ∧
    toList t = [⟨10, 5, 1⟩, ⟨30, 5, 3⟩, ⟨50, 5, 5⟩] ∧ inNode 52 t = some ⟨50, 5, 5⟩ :=
  ⟨_, rfl, rfl, rfl⟩

/-! ## C16 -/

/-- C16: after any history the height is at most `2 * log2 (n + 1)`, `n` the number of stored
intervals (both build types). -/
theorem C16_height (d : Bool) (ops : List Op) :
    ∃ t, run d ops .nil = some t ∧ height t ≤ 2 * Nat.log2 ((toList t).length + 1) := by
  suffices ∀ t, Inv t → ∃ t', run d ops t = some t' ∧ Inv t' by
    obtain ⟨t', h1, h2, ⟨n, h3⟩, h4⟩ := this .nil Valid.nil.inv
    refine ⟨t', h1, ?_⟩
    have := height_le t' n h3 h2
    rw [h4] at this
    have hn := (Nat.le_log2 (by omega)).2 (nodes_ge t' n h3)
    simp at this
    omega
  induction ops with
  | nil => intro t h; exact ⟨t, rfl, h⟩
  | cons op ops ih =>
    intro t h
    cases op with
    | ins e =>
      obtain ⟨r, h1, h2⟩ := insert_inv d e h
      obtain ⟨t', h3, h4⟩ := ih r.1 h2
      exact ⟨t', by simp [run, h1, h3], h4⟩
    | del b =>
      obtain ⟨t1, h1, h2⟩ := delete_inv b h
      obtain ⟨t', h3, h4⟩ := ih t1 h2
      exact ⟨t', by simp [run, h1, h3], h4⟩

/-! ## C17 -/

/-- C17: `rb_max_node` returns the interval with the highest base, and the `NIL` sentinel exactly
for the empty tree. -/
theorem C17_max {t : Tree} (hv : Valid t) :
    (∀ e, maxNode t = some e ↔ e ∈ toList t ∧ ∀ x ∈ toList t, x.base ≤ e.base) ∧
    (maxNode t = none ↔ toList t = []) := by
  have hl : ∀ t, maxNode t = (toList t).getLast? := by
    intro t
    induction t with
    | nil => rfl
    | node c l e r _ ihr =>
      cases r with
      | nil => simp [maxNode, toList]
      | node c' l' e' r' =>
        rw [maxNode, ihr]
        · simp [toList, List.getLast?_append, List.getLast?_cons]
        · simp
  rw [hl]
  have ho := hv.ord
  unfold Ordered at ho
  constructor
  · intro e
    rw [List.getLast?_eq_some_iff]
    constructor
    · rintro ⟨ys, hys⟩
      rw [hys, List.pairwise_append] at ho
      rw [hys]
      refine ⟨by simp, fun x hx => ?_⟩
      rw [List.mem_append, List.mem_singleton] at hx
      rcases hx with hx | rfl
      · exact Nat.le_of_lt (ho.2.2 x hx e (by simp))
      · exact Nat.le_refl _
    · rintro ⟨h1, h2⟩
      obtain ⟨a, b, hab⟩ := List.append_of_mem h1
      refine ⟨a, ?_⟩
      cases b with
      | nil => exact hab
      | cons y b =>
        exfalso
        rw [hab, List.pairwise_append, List.pairwise_cons] at ho
        have := ho.2.1.1 y (by simp)
        have := h2 y (by rw [hab]; simp)
        omega
  · simp

/-- C17: `rb_min_node` returns the interval with the lowest base, and the `NIL` sentinel exactly
for the empty tree. -/
theorem C17_min {t : Tree} (hv : Valid t) :
    (∀ e, minNode t = some e ↔ e ∈ toList t ∧ ∀ x ∈ toList t, e.base ≤ x.base) ∧
    (minNode t = none ↔ toList t = []) := by
  have hl : ∀ t, minNode t = (toList t).head? := by
    intro t
    induction t with
    | nil => rfl
    | node c l e r ihl _ =>
      cases l with
      | nil => simp [minNode, toList]
      | node c' l' e' r' =>
        rw [minNode, ihl]
        · simp [toList, List.head?_append]
        · simp
  rw [hl]
  have ho := hv.ord
  unfold Ordered at ho
  constructor
  · intro e
    rw [List.head?_eq_some_iff]
    constructor
    · rintro ⟨ys, hys⟩
      rw [hys, List.pairwise_cons] at ho
      rw [hys]
      refine ⟨by simp, fun x hx => ?_⟩
      rcases List.mem_cons.1 hx with rfl | hx
      · exact Nat.le_refl _
      · exact Nat.le_of_lt (ho.1 x hx)
    · rintro ⟨h1, h2⟩
      obtain ⟨a, b, hab⟩ := List.append_of_mem h1
      cases a with
      | nil => exact ⟨b, hab⟩
      | cons y a =>
        exfalso
        rw [hab, List.cons_append, List.pairwise_cons] at ho
        have := ho.1 e (by simp)
        have := h2 y (by rw [hab]; simp)
        omega
  · simp

/-- The tree of intervals 10, 30, 20 (each of size 5). -/
def w3 : Tree := .node .black (.node .red .nil ⟨10, 5, 0⟩ .nil) ⟨20, 5, 0⟩
  (.node .red .nil ⟨30, 5, 0⟩ .nil)

/-- The tree with bases 10 .. 50. -/
def w5 : Tree := .node .black (.node .black .nil ⟨10, 5, 0⟩ .nil) ⟨20, 5, 0⟩
  (.node .black (.node .red .nil ⟨30, 5, 0⟩ .nil) ⟨40, 5, 0⟩ (.node .red .nil ⟨50, 5, 0⟩ .nil))

/-- C17 fails for `rb_next_higher_node`: because the `max` fields are never filled in, an address
above the root's interval yields `NULL` although a higher interval exists. -/
theorem C17_next_higher_misses :
    run true [.ins ⟨10, 5, 0⟩, .ins ⟨20, 5, 0⟩, .ins ⟨30, 5, 0⟩] .nil = some w3 ∧
    nextHigher 26 w3 = none ∧ ⟨30, 5, 0⟩ ∈ toList w3 := by
  refine ⟨rfl, rfl, by decide⟩

/-- C17 fails for `rb_next_higher_node` also in the other direction: an address below everything
yields the root, not the lowest interval. -/
theorem C17_next_higher_not_nearest :
    nextHigher 5 w3 = some ⟨20, 5, 0⟩ ∧ ⟨10, 5, 0⟩ ∈ toList w3 := by
  refine ⟨rfl, by decide⟩

/-- C17 fails for `rb_next_lower_node`: it looks only at the right child itself, not at the right
child's left subtree; for address 36 it answers 20 although 30 is stored. -/
theorem C17_next_lower_not_nearest :
    run true [.ins ⟨10, 5, 0⟩, .ins ⟨20, 5, 0⟩, .ins ⟨30, 5, 0⟩, .ins ⟨40, 5, 0⟩, .ins ⟨50, 5, 0⟩,
      .del 30, .ins ⟨30, 5, 0⟩] .nil = some w5 ∧
    nextLower 36 w5 = some ⟨20, 5, 0⟩ ∧ ⟨30, 5, 0⟩ ∈ toList w5 := by
  refine ⟨rfl, rfl, by decide⟩

/-- C17, what does hold for `rb_next_lower_node`: an answer is a stored interval with base at or
below the address.  Full statement (false by `C17_next_lower_not_nearest`): it is the one with the
largest such base, and `NULL` iff there is none. -/
theorem C17_next_lower_partial (addr : Nat) (t : Tree) (e : Ent) (h : nextLower addr t = some e) :
    e ∈ toList t ∧ e.base ≤ addr := by
  induction t with
  | nil => simp [nextLower] at h
  | node c l n r ihl ihr =>
    unfold nextLower at h
    split at h
    · split at h
      · rename_i hc
        obtain rfl : n = e := by simpa using h
        exact ⟨by simp [toList], by simpa using hc⟩
      · split at h
        · have := ihl h; exact ⟨by simp [toList, this.1], this.2⟩
        · simp [nextLower] at h
    · split at h
      · rename_i hc
        obtain rfl : n = e := by simpa using h
        exact ⟨by simp [toList], hc.1⟩
      · split at h
        · have := ihl h; exact ⟨by simp [toList, this.1], this.2⟩
        · have := ihr h
          exact ⟨List.mem_append.2 (.inr (List.mem_cons_of_mem _ this.1)), this.2⟩

/-- C17, what does hold for `rb_next_higher_node`: an answer is a stored interval ending above the
address.  Full statement (false by the two witnesses above): it is the one with the smallest base,
and `NULL` iff there is none. -/
theorem C17_next_higher_partial (addr : Nat) (t : Tree) (e : Ent) (hg : ∀ x ∈ toList t, Good x)
    (h : nextHigher addr t = some e) : e ∈ toList t ∧ addr < e.base + e.size := by
  cases t with
  | nil => simp [nextHigher] at h
  | node c l n r =>
    unfold nextHigher at h
    split at h
    · rename_i hc
      obtain rfl : n = e := by simpa using h
      have := (hg n (by simp [toList])).last
      exact ⟨by simp [toList], by omega⟩
    · simp at h

end Verif.RB
