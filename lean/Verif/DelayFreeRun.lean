import Verif.DelayFreeProps
import Mathlib.Data.List.Perm.Subperm

/-! # The delay queue over whole runs -/
namespace Verif.DelayFree
open Verif

/-- Entries of a destroyed heap are taken out. -/
def kill (heap : Nat) (e : Ent) : Ent := if e.addr ≠ 0 ∧ e.aux = heap then e.dead else e

theorem destroyAt_spec (heap : Nat) {q : Q} (h : RB.Inv q.tree) {i : Nat}
    (hi : i < q.list.length) : ∃ t b, RB.Inv t ∧ destroyAt heap q i =
      some ⟨q.list.set i (kill heap (q.at i)), q.head, q.fill, q.bytes, t, b⟩ ∧
      (TI noEx q → i < q.fill → b = q.bad ∧
        TI noEx ⟨q.list.set i (kill heap (q.at i)), q.head, q.fill, q.bytes, t, b⟩ ∧
        ∀ x, x ∈ RB.toList t ↔ x ∈ RB.toList q.tree ∧
          ¬ ((q.at i).addr ≠ 0 ∧ (q.at i).aux = heap ∧ x.base = (q.at i).addr)) := by
  have hset : q.list.set i (q.at i) = q.list := by
    unfold Q.at
    rw [List.getD_eq_getElem?_getD, List.getElem?_eq_getElem hi]
    simp
  unfold destroyAt kill
  by_cases hc : (q.at i).addr ≠ 0 ∧ (q.at i).aux = heap
  · rw [if_pos hc, if_pos hc]
    have key : ∀ (t : RB.Tree), RB.Valid t → (∀ x, x ∈ RB.toList t ↔ x ∈ RB.toList q.tree ∧
        x.base ≠ (q.at i).addr) → TI noEx q → i < q.fill →
        TI noEx ⟨q.list.set i (q.at i).dead, q.head, q.fill, q.bytes, t, q.bad⟩ := by
      intro t hv hm ht hif
      refine ⟨hv, fun x hx => ht.nz x ((hm x).1 hx).1, fun j hj _ ha => ?_⟩
      rw [at_set _ _ _ _ _ _ _ _ _ hi] at ha ⊢
      by_cases hij : j = i
      · rw [if_pos hij] at ha
        exact absurd rfl ha
      · rw [if_neg hij] at ha ⊢
        exact (hm _).2 ⟨ht.idx j hj id ha, fun he => hij (ht.inj hj hif id id ha he)⟩
    cases hf : RB.find (q.at i).addr q.tree with
    | none =>
      refine ⟨q.tree, true, h, rfl, fun ht hif => ?_⟩
      have := (RB.C15_find (q.at i).addr _ ht.val).2 ⟨ht.idx i hif id hc.1, rfl⟩
      rw [hf] at this
      simp at this
    | some n =>
      obtain ⟨t', h1, h2⟩ := RB.delete_inv (q.at i).addr h
      refine ⟨t', q.bad, h2, by simp [h1], fun ht hif => ?_⟩
      obtain ⟨t2, h3, h4, h5⟩ := RB.C15_delete (q.at i).addr ht.val
      rw [h1] at h3
      obtain rfl := Option.some.inj h3
      refine ⟨rfl, key _ h4 h5 ht hif, fun x => ?_⟩
      rw [h5 x]
      constructor
      · rintro ⟨a, b⟩
        exact ⟨a, fun hh => b hh.2.2⟩
      · rintro ⟨a, b⟩
        exact ⟨a, fun hh => b ⟨hc.1, hc.2, hh⟩⟩
  · rw [if_neg hc, if_neg hc, hset]
    exact ⟨q.tree, q.bad, h, rfl, fun ht _ => ⟨rfl, ht, fun x =>
      ⟨fun hx => ⟨hx, fun hh => hc ⟨hh.1, hh.2.1⟩⟩, fun hx => hx.1⟩⟩⟩

theorem destroy_fold (heap : Nat) {q : Q} (h : RB.Inv q.tree) : ∀ k, k ≤ q.list.length →
    ∃ q', (List.range k).foldlM (destroyAt heap) q = some q' ∧ RB.Inv q'.tree ∧
      q'.head = q.head ∧ q'.fill = q.fill ∧ q'.bytes = q.bytes ∧
      q'.list.length = q.list.length ∧
      (∀ j, q'.at j = if j < k then kill heap (q.at j) else q.at j) ∧
      (TI noEx q → k ≤ q.fill → q'.bad = q.bad ∧ TI noEx q' ∧
        ∀ x, x ∈ RB.toList q'.tree ↔ x ∈ RB.toList q.tree ∧
          ¬ ∃ j, j < k ∧ (q.at j).addr ≠ 0 ∧ (q.at j).aux = heap ∧ x.base = (q.at j).addr) := by
  intro k
  induction k with
  | zero =>
    intro _
    refine ⟨q, rfl, h, rfl, rfl, rfl, rfl, fun j => by simp, fun ht _ => ⟨rfl, ht, fun x => ?_⟩⟩
    exact ⟨fun hx => ⟨hx, fun ⟨j, hj, _⟩ => absurd hj (Nat.not_lt_zero _)⟩, fun hx => hx.1⟩
  | succ k ih =>
    intro hk
    obtain ⟨q1, e1, i1, a1, a2, a3, a4, a5, a6⟩ := ih (by omega)
    obtain ⟨t, b, i2, e2, a7⟩ := destroyAt_spec heap i1 (i := k) (by omega)
    have hk1 : q1.at k = q.at k := by rw [a5, if_neg (Nat.lt_irrefl k)]
    rw [hk1] at e2 a7
    refine ⟨⟨q1.list.set k (kill heap (q.at k)), q1.head, q1.fill, q1.bytes, t, b⟩, ?_, i2, a1, a2, a3,
      by simpa using a4, ?_, ?_⟩
    · rw [List.range_succ, List.foldlM_append, e1]
      simp only [Option.bind_eq_bind, Option.bind_some, List.foldlM_cons, List.foldlM_nil, e2]
      rfl
    · intro j
      rw [at_set _ _ _ _ _ _ _ _ _ (by omega)]
      by_cases hj : j = k
      · subst hj
        rw [if_pos rfl, if_pos (by omega)]
      · rw [if_neg hj]
        have := a5 j
        unfold Q.at at this ⊢
        rw [this]
        by_cases hjk : j < k
        · rw [if_pos hjk, if_pos (by omega)]
        · rw [if_neg hjk, if_neg (by omega)]
    · intro ht hkf
      obtain ⟨b1, b2, b3⟩ := a6 ht (by omega)
      obtain ⟨c1, c2, c3⟩ := a7 b2 (by omega)
      refine ⟨c1.trans b1, c2, fun x => ?_⟩
      dsimp only
      rw [c3 x, b3 x]
      constructor
      · rintro ⟨⟨p1, p2⟩, p3⟩
        refine ⟨p1, ?_⟩
        rintro ⟨j, hj, h1, h2, h3⟩
        by_cases hjk : j = k
        · subst hjk; exact p3 ⟨h1, h2, h3⟩
        · exact p2 ⟨j, by omega, h1, h2, h3⟩
      · rintro ⟨p1, p2⟩
        refine ⟨⟨p1, ?_⟩, fun hh => p2 ⟨k, by omega, hh⟩⟩
        rintro ⟨j, hj, hh⟩
        exact p2 ⟨j, by omega, hh⟩

theorem live_kill (heap : Nat) (r : List Ent) :
    live (r.map (kill heap)) = (live r).filter fun e => decide (e.aux ≠ heap) := by
  induction r with
  | nil => rfl
  | cons e r ih =>
    rw [List.map_cons]
    unfold kill
    by_cases h0 : e.addr = 0
    · rw [if_neg (fun hh => hh.1 h0), live_cons, live_cons, if_pos h0, if_pos h0]
      exact ih
    · by_cases h1 : e.aux = heap
      · rw [if_pos ⟨h0, h1⟩, live_dead, live_cons, if_neg h0, List.filter_cons, if_neg (by simp [h1])]
        exact ih
      · rw [if_neg (fun hh => h1 hh.2), live_cons, live_cons, if_neg h0, if_neg h0, List.filter_cons,
          if_pos (by simp [h1])]
        exact congrArg _ ih

theorem total_filter (p : Ent → Bool) (l : List Ent) :
    ((l.filter p).map (·.size)).sum ≤ (l.map (·.size)).sum := by
  induction l with
  | nil => simp
  | cons e l ih =>
    rw [List.filter_cons]
    split <;> simp <;> omega

/-- Destroying a heap takes exactly its blocks out of the queue; the byte count stays. -/
theorem heapDestroy_spec {o : Opts} {q : Q} (h : SI o q) (heap : Nat) :
    ∃ q', heapDestroy o heap q = some q' ∧ SI o q' ∧ ring q' = (ring q).map (kill heap) ∧
      q'.bytes = q.bytes ∧
      (TI noEx q → q'.bad = q.bad ∧ TI noEx q' ∧ ∀ b s, holds q'.tree b s ↔ holds q.tree b s ∧
        ¬ ∃ e ∈ live (ring q), e.aux = heap ∧ e.addr = b) := by
  obtain ⟨hlen, hhd, hfl, hnf, hmx, hemp, hlim, hsum, htr⟩ := id h
  obtain ⟨q', e1, i1, a1, a2, a3, a4, a5, a6⟩ := destroy_fold heap htr q.fill (by omega)
  have hl : q'.list.take q'.fill = (q.list.take q.fill).map (kill heap) := by
    apply List.ext_getElem
    · simp only [List.length_take, List.length_map]; omega
    · intro j h1 h2
      have hj : j < q.fill := by simp at h1; omega
      have := a5 j
      rw [if_pos hj] at this
      unfold Q.at at this
      rw [List.getD_eq_getElem?_getD, List.getD_eq_getElem?_getD,
        List.getElem?_eq_getElem (show j < q'.list.length by omega),
        List.getElem?_eq_getElem (show j < q.list.length by omega)] at this
      simpa using this
  have hr : ring q' = (ring q).map (kill heap) := by
    unfold ring
    rw [hl, a1]
    simp only [List.map_append, List.map_drop, List.map_take]
  refine ⟨q', ?_, ⟨by omega, by omega, by omega, by rw [a1, a2]; exact hnf, hmx,
    by rw [a2, a3]; exact hemp, by omega, ?_, i1⟩, hr, a3, ?_⟩
  · unfold heapDestroy
    rw [if_neg (by omega : ¬ o.delay = 0)]
    exact e1
  · rw [hr, a3]
    refine Nat.le_trans ?_ hsum
    unfold total
    rw [live_kill]
    exact total_filter _ _
  · intro ht
    obtain ⟨b1, b2, b3⟩ := a6 ht (Nat.le_refl _)
    refine ⟨b1, b2, fun b s => ?_⟩
    have hmem : ∀ e, e ∈ live (ring q) ↔ ∃ j, j < q.fill ∧ e = q.at j ∧ e.addr ≠ 0 := by
      intro e
      unfold live
      rw [List.mem_filter]
      have h1 : e ∈ ring q ↔ e ∈ q.list.take q.fill := by
        unfold ring
        rw [List.mem_append]
        conv =>
          rhs
          rw [← List.take_append_drop q.head (q.list.take q.fill)]
        rw [List.mem_append, or_comm]
      rw [h1, List.mem_iff_getElem]
      constructor
      · rintro ⟨⟨j, hj, rfl⟩, ha⟩
        refine ⟨j, by simp at hj; omega, ?_, by simpa using ha⟩
        unfold Q.at
        rw [List.getD_eq_getElem?_getD, List.getElem?_eq_getElem (by simp at hj; omega)]
        simp
      · rintro ⟨j, hj, rfl, ha⟩
        refine ⟨⟨j, by simp; omega, ?_⟩, by simpa using ha⟩
        unfold Q.at
        rw [List.getD_eq_getElem?_getD, List.getElem?_eq_getElem (by omega)]
        simp
    unfold holds
    constructor
    · rintro ⟨c, hc⟩
      refine ⟨⟨c, ((b3 _).1 hc).1⟩, ?_⟩
      rintro ⟨e, he, e1, e2⟩
      obtain ⟨j, hj, rfl, ha⟩ := (hmem e).1 he
      exact ((b3 _).1 hc).2 ⟨j, hj, ha, e1, e2.symm⟩
    · rintro ⟨⟨c, hc⟩, hn⟩
      refine ⟨c, (b3 _).2 ⟨hc, ?_⟩⟩
      rintro ⟨j, hj, h1, h2, h3⟩
      exact hn ⟨q.at j, (hmem _).2 ⟨j, hj, rfl, h1⟩, h2, h3.symm⟩

/-! ## One step, counted -/

/-- Addresses of the waiting blocks. -/
def la (r : List Ent) : List Nat := (live r).map (·.addr)

theorem la_append (a b : List Ent) : la (a ++ b) = la a ++ la b := by simp [la, live_append]

theorem la_cons (e : Ent) (b : List Ent) : la (e :: b) = if e.addr = 0 then la b else e.addr :: la b := by
  unfold la
  rw [live_cons]
  split <;> simp

theorem la_dead (x : Ent) (b : List Ent) : la (x.dead :: b) = la b := by
  unfold la; rw [live_dead]

/-- What one call hands to the real `free`. -/
def given (a : Nat) : List Nat := if a = 0 then [] else [a]

theorem la_cons' (e : Ent) (b : List Ent) : la (e :: b) = given e.addr ++ la b := by
  rw [la_cons]; unfold given; split <;> rfl

/-- Nothing appears or vanishes in one step, except that a full queue over the byte limit may
overwrite its oldest block. -/
theorem Step.perm {o : Opts} {e : Ent} {R R' : List Ent} {B B' : Nat} {ret : Nat × Nat}
    (h : Step o e R B ret R' B') (hB : total R ≤ B) (he0 : e.addr ≠ 0) : ∃ lost,
      (given ret.1 ++ la R' ++ lost).Perm (la R ++ la [e]) ∧
      ((R.length = o.delay → B + e.size > o.maxsz → ∀ x T, R = x :: T →
          x.addr = 0 ∨ e.size ≤ x.size) → lost = [] ∧ B' + total R = B + total R') := by
  have l0 : la [] = [] := rfl
  have t0 : total [] = 0 := rfl
  have g : la [e] = given e.addr := by rw [la_cons, l0]; rfl
  have te : total [e] = e.size := by rw [total_cons, if_neg he0, t0]; omega
  have g0 : given 0 = [] := rfl
  cases h with
  | now h =>
    refine ⟨[], ?_, fun _ => ⟨rfl, rfl⟩⟩
    rw [List.append_nil, g]
    exact List.perm_append_comm
  | add hf hb =>
    refine ⟨[], ?_, fun _ => ⟨rfl, ?_⟩⟩
    · rw [List.append_nil, la_append]
      exact List.Perm.refl _
    · rw [total_append, te]; omega
  | turn h T hR hf hb =>
    subst hR
    refine ⟨[], ?_, fun _ => ⟨rfl, ?_⟩⟩
    · rw [List.append_nil, la_append, la_cons' h, List.append_assoc]
    · rw [total_cons] at hB
      rw [total_append, te, total_cons]
      omega
  | swap l r x hR hf hx hs hl he hb =>
    subst hR
    refine ⟨[], ?_, fun _ => ⟨rfl, ?_⟩⟩
    · rw [List.append_nil, la_append, la_append, la_append, la_dead, la_cons' x]
      rw [← List.append_assoc, ← List.append_assoc]
      refine List.Perm.append_right _ ?_
      rw [← List.append_assoc]
      exact List.Perm.append_right _ List.perm_append_comm
    · rw [total_append, total_cons, if_neg hx] at hB
      simp only [total_append, total_dead, te, total_cons x, if_neg hx]
      omega
  | squeeze l r x hR hf hx hs hl he hb =>
    subst hR
    cases l with
    | nil =>
      refine ⟨[], ?_, fun _ => ⟨rfl, ?_⟩⟩
      · rw [List.append_nil, List.nil_append, List.tail_cons, la_append, List.nil_append, la_cons' x,
          List.append_assoc]
      · rw [List.nil_append, total_cons, if_neg hx] at hB
        rw [List.nil_append, List.nil_append, List.tail_cons, total_append, te, total_cons, if_neg hx]
        omega
    | cons y l =>
      refine ⟨given y.addr, ?_, fun hc => ?_⟩
      · rw [List.cons_append, List.tail_cons, la_append, la_append, la_dead, List.cons_append,
          la_cons' y, la_append, la_cons' x]
        rw [List.perm_iff_count]
        intro a
        simp only [List.count_append]
        omega
      · have hy : y.addr = 0 := by
          rcases hc hf hb y _ rfl with h | h
          · exact h
          · rcases hl y (by simp) with h' | h'
            · exact h'
            · omega
        refine ⟨by rw [hy, g0], ?_⟩
        rw [List.cons_append, total_cons, if_pos hy, total_append, total_cons, if_neg hx] at hB
        simp only [List.cons_append, List.tail_cons, total_append, te, total_dead, total_cons y,
          if_pos hy, total_cons x, if_neg hx]
        omega

/-! ## Runs -/

/-- The blocks freed by a sequence of calls, in order. -/
def freed (o : Opts) : List Call → List Ent
  | [] => []
  | .free m aux :: cs => ent o m aux :: freed o cs
  | .destroy _ :: cs => freed o cs

/-- The non-NULL addresses passed to the real `free`, in order. -/
def passed : List (Option (Nat × Nat)) → List Nat
  | [] => []
  | none :: rs => passed rs
  | some (a, _) :: rs => given a ++ passed rs

/-- The blocks that wait in the queue. -/
def waiting (q : Q) : List Ent := live (ring q)

/-- Every freed block has a real address. -/
def Proper (o : Opts) (cs : List Call) : Prop := ∀ e ∈ freed o cs, e.addr ≠ 0

/-- Whenever the queue is full and over the byte limit, its oldest entry is empty or at least as
large as the block being freed. -/
def NoSqueeze (o : Opts) : List Call → Q → Prop
  | [], _ => True
  | .free m aux :: cs, q => (q.fill = o.delay → q.bytes + m.tot o > o.maxsz →
      ∀ x T, ring q = x :: T → x.addr = 0 ∨ m.tot o ≤ x.size) ∧
      ∀ r, step o (.free m aux) q = some r → NoSqueeze o cs r.1
  | .destroy h :: cs, q => ∀ r, step o (.destroy h) q = some r → NoSqueeze o cs r.1

/-- No heap is destroyed. -/
def NoDestroy (cs : List Call) : Prop := ∀ h, Call.destroy h ∉ cs

theorem la_kill (heap : Nat) (r : List Ent) : ∃ gone,
    (la (r.map (kill heap)) ++ gone).Perm (la r) := by
  unfold la
  rw [live_kill]
  refine ⟨((live r).filter fun e => !decide (e.aux ≠ heap)).map (·.addr), ?_⟩
  rw [← List.map_append]
  exact (List.filter_append_perm _ _).map _

theorem run_perm {o : Opts} : ∀ (cs : List Call) {q : Q}, SI o q → Proper o cs →
    ∃ q' rets, run o cs q = some (q', rets) ∧ SI o q' ∧ ∃ lost,
      (passed rets ++ la (ring q') ++ lost).Perm (la (ring q) ++ (freed o cs).map (·.addr)) ∧
      (NoDestroy cs → NoSqueeze o cs q → lost = [] ∧
        q'.bytes + total (ring q) = q.bytes + total (ring q')) := by
  intro cs
  induction cs with
  | nil =>
    intro q h _
    exact ⟨q, [], rfl, h, [], by simp [passed, freed], fun _ _ => ⟨rfl, rfl⟩⟩
  | cons c cs ih =>
    intro q h hp
    cases c with
    | free m aux =>
      obtain ⟨q1, ret, e1, s1, st⟩ := handleFree_step h m aux
      have he0 : (ent o m aux).addr ≠ 0 := hp _ (by simp [freed])
      obtain ⟨lost1, p1, c1⟩ := st.perm h.sum he0
      obtain ⟨q2, rets, e2, s2, lost2, p2, c2⟩ := ih s1 (fun e he => hp e (by simp [freed, he]))
      have es : step o (.free m aux) q = some (q1, some ret) := by
        simp only [step, e1, Option.map_some]
      refine ⟨q2, some ret :: rets, ?_, s2, lost1 ++ lost2, ?_, ?_⟩
      · unfold run
        rw [es, Option.bind_some, e2]
        rfl
      · have hla : la [ent o m aux] = [(ent o m aux).addr] := by
          rw [la_cons, if_neg he0]; rfl
        rw [hla] at p1
        rw [List.perm_iff_count] at *
        intro a
        have p1 := p1 a
        have p2 := p2 a
        obtain ⟨r1, r2⟩ := ret
        simp only [passed, freed, List.count_append, List.map_cons, List.count_cons,
          List.count_nil] at *
        omega
      · intro hnd hns
        obtain ⟨n1, n2⟩ := hns
        obtain ⟨d1, d2⟩ := c1 (fun hf hb => n1 (by rw [← ring_length h]; exact hf) hb)
        obtain ⟨d3, d4⟩ := c2 (fun hh hm => hnd hh (by simp [hm])) (n2 _ es)
        subst d1 d3
        refine ⟨rfl, by omega⟩
    | destroy heap =>
      obtain ⟨q1, e1, s1, hr, hb, -⟩ := heapDestroy_spec h heap
      obtain ⟨q2, rets, e2, s2, lost2, p2, c2⟩ := ih s1 (fun e he => hp e (by simpa [freed] using he))
      obtain ⟨gone, p3⟩ := la_kill heap (ring q)
      have es : step o (.destroy heap) q = some (q1, none) := by
        simp only [step, e1, Option.map_some]
      refine ⟨q2, none :: rets, ?_, s2, gone ++ lost2, ?_, ?_⟩
      · unfold run
        rw [es, Option.bind_some, e2]
        rfl
      · rw [hr] at p2
        rw [List.perm_iff_count] at *
        intro a
        have p2 := p2 a
        have p3 := p3 a
        simp only [passed, freed, List.count_append] at *
        omega
      · intro hnd
        exact absurd (List.mem_cons_self) (hnd heap)

/-! ## First in, first out -/

theorem Step.fits {o : Opts} {e : Ent} {R R' : List Ent} {B B' : Nat} {ret : Nat × Nat}
    (h : Step o e R B ret R' B') (hd : 0 < o.delay) (hb : B + e.size ≤ o.maxsz) :
    (R.length < o.delay ∧ ret = (0, e.aux) ∧ R' = R ++ [e] ∧ B' = B + e.size) ∨
    (R.length = o.delay ∧ ∃ x T, R = x :: T ∧ ret = (x.addr, x.aux) ∧ R' = T ++ [e] ∧
      B' = B + e.size - (if x.addr = 0 then 0 else x.size)) := by
  cases h with
  | now h => omega
  | add hf _ => exact .inl ⟨hf, rfl, rfl, rfl⟩
  | turn x T hR hf _ => exact .inr ⟨hf, x, T, hR, rfl, rfl, rfl⟩
  | swap => omega
  | squeeze => omega

/-- Sum of the sizes. -/
def bytes (l : List Ent) : Nat := (l.map (·.size)).sum

theorem bytes_append (a b : List Ent) : bytes (a ++ b) = bytes a + bytes b := by simp [bytes]

theorem bytes_cons (e : Ent) (b : List Ent) : bytes (e :: b) = e.size + bytes b := by simp [bytes]

/-- Any `n + 1` consecutive blocks fit into the byte limit. -/
def Windows (o : Opts) (A : List Ent) : Prop := ∀ j, bytes ((A.drop j).take (o.delay + 1)) ≤ o.maxsz

theorem run_fifo {o : Opts} (hd : 0 < o.delay) : ∀ (cs : List Call) {q : Q}, SI o q → NoDestroy cs →
    Proper o cs → (∀ e ∈ ring q, e.addr ≠ 0) → q.bytes = bytes (ring q) →
    Windows o (ring q ++ freed o cs) →
    ∃ q' rets, run o cs q = some (q', rets) ∧ rets.length = cs.length ∧
      ∀ i, i < cs.length → ∃ e ∈ (ring q ++ freed o cs)[(ring q).length + i]?,
        rets[i]? = if (ring q).length + i < o.delay then some (some (0, e.aux)) else
          (ring q ++ freed o cs)[(ring q).length + i - o.delay]?.map fun x =>
            some (x.addr, x.aux) := by
  intro cs
  induction cs with
  | nil => intro q h _ _ _ _ _; exact ⟨q, [], rfl, rfl, fun i hi => absurd hi (Nat.not_lt_zero _)⟩
  | cons c cs ih =>
    intro q h hnd hp hl hB hw
    cases c with
    | destroy heap => exact absurd (List.mem_cons_self) (hnd heap)
    | free m aux =>
      obtain ⟨q1, ret, e1, s1, st⟩ := handleFree_step h m aux
      have es : step o (.free m aux) q = some (q1, some ret) := by
        simp only [step, e1, Option.map_some]
      have hlen := ring_length h
      have hfl := h.fl
      have hfit : q.bytes + (ent o m aux).size ≤ o.maxsz := by
        have := hw 0
        rw [List.drop_zero] at this
        have e2 : ring q ++ freed o (.free m aux :: cs) =
            (ring q ++ [ent o m aux]) ++ freed o cs := by simp [freed]
        rw [e2, List.take_append, bytes_append,
          List.take_of_length_le (by simp; omega), bytes_append, bytes_cons] at this
        omega
      have he0 : (ent o m aux).addr ≠ 0 := hp _ (by simp [freed])
      have hnd' : NoDestroy cs := fun hh hm => hnd hh (by simp [hm])
      have hp' : Proper o cs := fun e he => hp e (by simp [freed, he])
      rcases st.fits hd hfit with ⟨f1, f2, f3, f4⟩ | ⟨f1, x, T, f2, f3, f4, f5⟩
      · have eA : ring q1 ++ freed o cs = ring q ++ freed o (.free m aux :: cs) := by
          rw [f3]; simp [freed]
        obtain ⟨q2, rets, r1, r2, r3⟩ := ih s1 hnd' hp' (by
            intro e he
            rw [f3] at he
            rcases List.mem_append.1 he with he | he
            · exact hl e he
            · rw [List.mem_singleton.1 he]; exact he0)
          (by rw [f4, f3, bytes_append, hB]; rfl) (by rw [eA]; exact hw)
        have hl1 : (ring q1).length = (ring q).length + 1 := by rw [f3]; simp
        refine ⟨q2, some ret :: rets, ?_, by simp [r2], ?_⟩
        · unfold run
          rw [es, Option.bind_some, r1]
          rfl
        · intro i hi
          cases i with
          | zero =>
            refine ⟨ent o m aux, by simp [freed], ?_⟩
            rw [if_pos (by omega), f2]
            rfl
          | succ i =>
            obtain ⟨e, he, hr⟩ := r3 i (by simpa using hi)
            rw [eA, hl1] at he hr
            have : (ring q).length + 1 + i = (ring q).length + (i + 1) := by omega
            rw [this] at he hr
            exact ⟨e, he, by simpa using hr⟩
      · have hx : x.addr ≠ 0 := hl x (by rw [f2]; simp)
        rw [if_neg hx] at f5
        have eA : x :: (ring q1 ++ freed o cs) = ring q ++ freed o (.free m aux :: cs) := by
          rw [f4, f2]; simp [freed]
        have hl1 : (ring q1).length = (ring q).length := by rw [f4, f2]; simp
        obtain ⟨q2, rets, r1, r2, r3⟩ := ih s1 hnd' hp' (by
            intro e he
            rw [f4] at he
            rcases List.mem_append.1 he with he | he
            · exact hl e (by rw [f2]; simp [he])
            · rw [List.mem_singleton.1 he]; exact he0)
          (by
            rw [f2, bytes_cons] at hB
            rw [f5, f4, bytes_append, hB]
            simp only [bytes, List.map_cons, List.map_nil, List.sum_cons, List.sum_nil]
            omega)
          (by
            intro j
            have := hw (j + 1)
            rw [← eA] at this
            simpa using this)
        refine ⟨q2, some ret :: rets, ?_, by simp [r2], ?_⟩
        · unfold run
          rw [es, Option.bind_some, r1]
          rfl
        · intro i hi
          cases i with
          | zero =>
            refine ⟨ent o m aux, by simp [freed], ?_⟩
            rw [if_neg (by omega), ← eA, f3]
            have : (ring q).length + 0 - o.delay = 0 := by omega
            rw [this]
            rfl
          | succ i =>
            obtain ⟨e, he, hr⟩ := r3 i (by simpa using hi)
            rw [if_neg (by omega)] at hr
            rw [hl1] at he hr
            have k1 : (ring q).length + (i + 1) = (ring q).length + i + 1 := by omega
            have k2 : (ring q).length + (i + 1) - o.delay = (ring q).length + i - o.delay + 1 := by omega
            refine ⟨e, ?_, ?_⟩
            · rw [← eA, k1]
              simpa using he
            · rw [if_neg (by omega), ← eA, k2]
              simpa using hr

/-! ## The ledger of the application's blocks, and the tree -/

/-- The blocks freed by the application and not yet passed to the real `free` (nor lost with their
heap), after a call with its outcome. -/
def ledger (o : Opts) (L : List Ent) : Call → Option (Nat × Nat) → List Ent
  | .free m aux, some (a, _) =>
    if a = m.start o then L else L.filter (fun e => decide (e.addr ≠ a)) ++ [ent o m aux]
  | .free _ _, none => L
  | .destroy h, _ => L.filter fun e => decide (e.aux ≠ h)

/-- The ledger after a run. -/
def ledgers (o : Opts) : List Ent → List Call → List (Option (Nat × Nat)) → List Ent
  | L, c :: cs, r :: rs => ledgers o (ledger o L c r) cs rs
  | L, _, _ => L

/-- The application frees proper blocks that share no byte with a block of the ledger (such memory
has not been given back to its allocator). -/
def AppOk (o : Opts) : List Call → Q → List Ent → Prop
  | [], _, _ => True
  | .free m aux :: cs, q, L => (m.start o ≠ 0 ∧ 0 < m.tot o ∧ m.start o + m.tot o < 2 ^ 64 ∧
      ∀ e ∈ L, m.start o + m.tot o ≤ e.addr ∨ e.addr + e.size ≤ m.start o) ∧
      ∀ r, step o (.free m aux) q = some r → AppOk o cs r.1 (ledger o L (.free m aux) r.2)
  | .destroy h :: cs, q, L =>
      ∀ r, step o (.destroy h) q = some r → AppOk o cs r.1 (ledger o L (.destroy h) r.2)

theorem mem_live {e : Ent} {r : List Ent} : e ∈ live r ↔ e ∈ r ∧ e.addr ≠ 0 := by
  unfold live; rw [List.mem_filter]; simp

theorem Step.sub {o : Opts} {e : Ent} {R R' : List Ent} {B B' : Nat} {ret : Nat × Nat}
    (h : Step o e R B ret R' B') : ∀ x ∈ live R', x ∈ live R ∨ x = e := by
  intro x hx
  rw [mem_live] at hx ⊢
  obtain ⟨hx, h0⟩ := hx
  cases h with
  | now => exact .inl ⟨hx, h0⟩
  | add =>
    rcases List.mem_append.1 hx with hx | hx
    · exact .inl ⟨hx, h0⟩
    · exact .inr (List.mem_singleton.1 hx)
  | turn y T hR =>
    rcases List.mem_append.1 hx with hx | hx
    · exact .inl ⟨by rw [hR]; simp [hx], h0⟩
    · exact .inr (List.mem_singleton.1 hx)
  | swap l r y hR =>
    rcases List.mem_append.1 hx with hx | hx
    · rcases List.mem_append.1 hx with hx | hx
      · exact .inl ⟨by rw [hR]; simp [hx], h0⟩
      · rcases List.mem_cons.1 hx with rfl | hx
        · exact absurd rfl h0
        · exact .inl ⟨by rw [hR]; simp [hx], h0⟩
    · exact .inr (List.mem_singleton.1 hx)
  | squeeze l r y hR =>
    rcases List.mem_append.1 hx with hx | hx
    · have hx := List.mem_of_mem_tail hx
      rcases List.mem_append.1 hx with hx | hx
      · exact .inl ⟨by rw [hR]; simp [hx], h0⟩
      · rcases List.mem_cons.1 hx with rfl | hx
        · exact absurd rfl h0
        · exact .inl ⟨by rw [hR]; simp [hx], h0⟩
    · exact .inr (List.mem_singleton.1 hx)

theorem Step.keep {o : Opts} {e : Ent} {R R' : List Ent} {B B' : Nat} {ret : Nat × Nat}
    (h : Step o e R B ret R' B') (he : e.addr ≠ 0)
    (hn : R.length = o.delay → B + e.size > o.maxsz → ∀ x T, R = x :: T →
      x.addr = 0 ∨ e.size ≤ x.size) :
    (∀ x ∈ live R, x.addr ≠ ret.1 → x ∈ live R') ∧ (ret.1 ≠ e.addr → e ∈ live R') := by
  simp only [mem_live]
  cases h with
  | now => exact ⟨fun x hx _ => hx, fun h => absurd rfl h⟩
  | add =>
    exact ⟨fun x hx _ => ⟨by simp [hx.1], hx.2⟩, fun _ => ⟨by simp, he⟩⟩
  | turn y T hR =>
    refine ⟨fun x hx hne => ⟨?_, hx.2⟩, fun _ => ⟨by simp, he⟩⟩
    have hx := hx.1
    rw [hR] at hx
    rcases List.mem_cons.1 hx with rfl | hx
    · exact absurd rfl hne
    · simp [hx]
  | swap l r y hR =>
    refine ⟨fun x hx hne => ⟨?_, hx.2⟩, fun _ => ⟨by simp, he⟩⟩
    have hx := hx.1
    rw [hR] at hx
    rcases List.mem_append.1 hx with hx | hx
    · simp [hx]
    · rcases List.mem_cons.1 hx with rfl | hx
      · exact absurd rfl hne
      · simp [hx]
  | squeeze l r y hR hf hy hs hl _ hb =>
    refine ⟨fun x hx hne => ⟨?_, hx.2⟩, fun _ => ⟨by simp, he⟩⟩
    obtain ⟨hx, h0⟩ := hx
    have hn := hn hf hb
    rw [hR] at hx hn
    cases l with
    | nil =>
      rcases List.mem_cons.1 hx with rfl | hx
      · exact absurd rfl hne
      · simp [hx]
    | cons z l =>
      have hz : z.addr = 0 := by
        rcases hn z _ rfl with h | h
        · exact h
        · rcases hl z (by simp) with h' | h'
          · exact h'
          · omega
      rcases List.mem_cons.1 hx with rfl | hx
      · exact absurd hz h0
      · rcases List.mem_append.1 hx with hx | hx
        · simp [hx]
        · rcases List.mem_cons.1 hx with rfl | hx
          · exact absurd rfl hne
          · simp [hx]

theorem inj_of_nodup {l : List Ent} (h : (l.map (·.addr)).Nodup) {x y : Ent} (hx : x ∈ l)
    (hy : y ∈ l) (e : x.addr = y.addr) : x = y := by
  induction l with
  | nil => simp at hx
  | cons a l ih =>
    rw [List.map_cons, List.nodup_cons] at h
    rcases List.mem_cons.1 hx with h1 | h1 <;> rcases List.mem_cons.1 hy with h2 | h2
    · rw [h1, h2]
    · exact absurd (List.mem_map.2 ⟨y, h2, by rw [← e, h1]⟩) h.1
    · exact absurd (List.mem_map.2 ⟨x, h1, by rw [e, h2]⟩) h.1
    · exact ih h.2 h1 h2

/-- Queue, tree and ledger agree; no assertion has failed. -/
structure K (o : Opts) (q : Q) (L : List Ent) : Prop where
  si : SI o q
  ti : TI noEx q
  ok : q.bad = false
  tree : ∀ b s, holds q.tree b s ↔ ∃ e ∈ L, e.addr = b ∧ e.size = s
  sub : ∀ e ∈ waiting q, e ∈ L
  nd : (la (ring q)).Nodup

theorem K.free {o : Opts} {q : Q} {L : List Ent} (k : K o q L) {m : Mal} {aux : Nat}
    (ha : m.start o ≠ 0 ∧ 0 < m.tot o ∧ m.start o + m.tot o < 2 ^ 64 ∧
      ∀ e ∈ L, m.start o + m.tot o ≤ e.addr ∨ e.addr + e.size ≤ m.start o) :
    ∃ q' ret, step o (.free m aux) q = some (q', some ret) ∧
      K o q' (ledger o L (.free m aux) (some ret)) ∧
      ((q.fill = o.delay → q.bytes + m.tot o > o.maxsz → ∀ x T, ring q = x :: T →
        x.addr = 0 ∨ m.tot o ≤ x.size) → (∀ e ∈ L, e ∈ waiting q) →
          ∀ e ∈ ledger o L (.free m aux) (some ret), e ∈ waiting q') := by
  obtain ⟨a1, a2, a3, a4⟩ := ha
  have hW : RB.W = 2 ^ 64 := rfl
  have hfr : Fresh o m q.tree := by
    refine ⟨a1, ⟨a2, by rw [hW]; exact a3⟩, ?_⟩
    rintro x hx ⟨y, h1, h2⟩
    obtain ⟨e, he, e1, e2⟩ := (k.tree x.base x.size).1 ⟨x.client, hx⟩
    have := a4 e he
    unfold RB.Covers at h1 h2
    dsimp only at h1
    omega
  obtain ⟨q', ret, h1, h2, st⟩ := handleFree_step k.si m aux
  obtain ⟨t1, t2, t3⟩ := handleFree_tree k.si k.ti hfr h1
  have es : step o (.free m aux) q = some (q', some ret) := by
    simp only [step, h1, Option.map_some]
  refine ⟨q', ret, es, ?_⟩
  obtain ⟨r1, r2⟩ := ret
  rcases t3 with ⟨t3, rfl⟩ | ⟨t3, t4⟩
  · dsimp only at t3
    simp only [ledger]
    rw [if_pos t3]
    exact ⟨k, fun _ hE => hE⟩
  · dsimp only at t3 t4
    simp only [ledger]
    rw [if_neg t3]
    obtain ⟨lost, p1, -⟩ := st.perm k.si.sum a1
    have hla : la [ent o m aux] = [m.start o] := by
      rw [la_cons, if_neg (show (ent o m aux).addr ≠ 0 from a1)]; rfl
    rw [hla] at p1
    have hnew : m.start o ∉ la (ring q) := by
      intro hc
      obtain ⟨e, he, hea⟩ := List.mem_map.1 hc
      have heL := k.sub e he
      obtain ⟨c, hc⟩ := (k.tree e.addr e.size).2 ⟨e, heL, rfl, rfl⟩
      exact hfr.ne k.ti.val hc hea
    have hnd : (given r1 ++ la (ring q') ++ lost).Nodup := by
      rw [p1.nodup_iff, List.nodup_append]
      refine ⟨k.nd, by simp, ?_⟩
      intro x hx y hy
      rw [List.mem_singleton.1 hy]
      exact fun hh => hnew (hh ▸ hx)
    have hnd2 := (List.nodup_append.1 hnd).1
    have hnd3 := List.nodup_append.1 hnd2
    have hr1 : ∀ e ∈ waiting q', e.addr ≠ r1 := by
      intro e he hc
      have h0 : e.addr ≠ 0 := (mem_live.1 he).2
      refine hnd3.2.2 r1 ?_ e.addr (List.mem_map.2 ⟨e, he, rfl⟩) hc.symm
      unfold given
      rw [if_neg (by rw [← hc]; exact h0)]
      simp
    refine ⟨⟨h2, t1, t2.trans k.ok, ?_, ?_, hnd3.2.1⟩, ?_⟩
    · intro b s
      rw [t4 b s, k.tree b s]
      constructor
      · rintro (⟨rfl, rfl⟩ | ⟨hb, e, he, e1, e2⟩)
        · exact ⟨ent o m aux, by simp, rfl, rfl⟩
        · exact ⟨e, by simp [he, e1, hb], e1, e2⟩
      · rintro ⟨e, he, e1, e2⟩
        rcases List.mem_append.1 he with he | he
        · rw [List.mem_filter] at he
          have := of_decide_eq_true he.2
          exact .inr ⟨by rw [← e1]; exact this, e, he.1, e1, e2⟩
        · rw [List.mem_singleton.1 he] at e1 e2
          exact .inl ⟨e1.symm, e2.symm⟩
    · intro e he
      rcases st.sub e he with h | h
      · exact List.mem_append_left _ (List.mem_filter.2 ⟨k.sub e h, decide_eq_true (hr1 e he)⟩)
      · rw [h]; simp
    · intro hn hE e he
      obtain ⟨c1, c2⟩ := st.keep a1 (fun hf hb => hn (by rw [← ring_length k.si]; exact hf) hb)
      rcases List.mem_append.1 he with he | he
      · rw [List.mem_filter] at he
        exact c1 e (hE e he.1) (of_decide_eq_true he.2)
      · rw [List.mem_singleton.1 he]
        exact c2 t3

theorem K.destroy {o : Opts} {q : Q} {L : List Ent} (k : K o q L) (heap : Nat)
    (hE : ∀ e ∈ L, e ∈ waiting q) :
    ∃ q', step o (.destroy heap) q = some (q', none) ∧
      K o q' (ledger o L (.destroy heap) none) ∧
      ∀ e ∈ ledger o L (.destroy heap) none, e ∈ waiting q' := by
  obtain ⟨q', h1, h2, h3, h4, h5⟩ := heapDestroy_spec k.si heap
  obtain ⟨t1, t2, t3⟩ := h5 k.ti
  have hw : waiting q' = (waiting q).filter fun e => decide (e.aux ≠ heap) := by
    unfold waiting
    rw [h3, live_kill]
  refine ⟨q', by simp only [step, h1, Option.map_some], ⟨h2, t2, t1.trans k.ok, ?_, ?_, ?_⟩, ?_⟩
  · intro b s
    unfold ledger
    rw [t3 b s, k.tree b s]
    constructor
    · rintro ⟨⟨e, he, e1, e2⟩, hn⟩
      refine ⟨e, List.mem_filter.2 ⟨he, decide_eq_true fun hc => hn ⟨e, hE e he, hc, e1⟩⟩, e1, e2⟩
    · rintro ⟨e, he, e1, e2⟩
      rw [List.mem_filter] at he
      have hne := of_decide_eq_true he.2
      refine ⟨⟨e, he.1, e1, e2⟩, ?_⟩
      rintro ⟨x, hx, hx1, hx2⟩
      -- x and e have the same address, so they are the same entry
      have hxe : x = e := inj_of_nodup k.nd hx (hE e he.1) (hx2.trans e1.symm)
      rw [hxe] at hx1
      exact hne hx1
  · intro e he
    rw [hw, List.mem_filter] at he
    unfold ledger
    rw [List.mem_filter]
    exact ⟨k.sub e he.1, he.2⟩
  · have : la (ring q') = ((waiting q).filter fun e => decide (e.aux ≠ heap)).map (·.addr) := by
      rw [← hw]; rfl
    rw [this]
    exact (List.filter_sublist.map _).nodup k.nd
  · intro e he
    unfold ledger at he
    rw [List.mem_filter] at he
    rw [hw, List.mem_filter]
    exact ⟨hE e he.1, he.2⟩

/-- Without destroyed heaps, or without squeezing, the agreement is kept. -/
theorem run_K {o : Opts} : ∀ (cs : List Call) {q : Q} {L : List Ent}, K o q L → AppOk o cs q L →
    (NoDestroy cs ∨ (NoSqueeze o cs q ∧ ∀ e ∈ L, e ∈ waiting q)) →
    ∃ q' rets, run o cs q = some (q', rets) ∧ K o q' (ledgers o L cs rets) ∧
      ((NoSqueeze o cs q ∧ ∀ e ∈ L, e ∈ waiting q) →
        ∀ e ∈ ledgers o L cs rets, e ∈ waiting q') := by
  intro cs
  induction cs with
  | nil => intro q L k _ _; exact ⟨q, [], rfl, k, fun h => h.2⟩
  | cons c cs ih =>
    intro q L k ha hc
    cases c with
    | free m aux =>
      obtain ⟨ha1, ha2⟩ := ha
      obtain ⟨q1, ret, es, k1, hk⟩ := k.free (aux := aux) ha1
      have hE : (NoSqueeze o (.free m aux :: cs) q ∧ ∀ e ∈ L, e ∈ waiting q) →
          NoSqueeze o cs q1 ∧ ∀ e ∈ ledger o L (.free m aux) (some ret), e ∈ waiting q1 := by
        rintro ⟨hn, hE⟩
        exact ⟨hn.2 _ es, hk hn.1 hE⟩
      obtain ⟨q2, rets, r1, r2, r3⟩ := ih k1 (ha2 _ es) (by
        rcases hc with hc | hc
        · exact .inl fun h hm => hc h (by simp [hm])
        · exact .inr (hE hc))
      refine ⟨q2, some ret :: rets, ?_, r2, fun h => r3 (hE h)⟩
      unfold run
      rw [es, Option.bind_some, r1]
      rfl
    | destroy heap =>
      rcases hc with hc | ⟨hn, hE⟩
      · exact absurd (List.mem_cons_self) (hc heap)
      obtain ⟨q1, es, k1, hk⟩ := k.destroy heap hE
      obtain ⟨q2, rets, r1, r2, r3⟩ := ih k1 (ha _ es) (.inr ⟨hn _ es, hk⟩)
      refine ⟨q2, none :: rets, ?_, r2, fun _ => r3 ⟨hn _ es, hk⟩⟩
      unfold run
      rw [es, Option.bind_some, r1]
      rfl

end Verif.DelayFree
