import Verif.DrFuzzThms

/-!
# Dr. Fuzz: what is kept for a target, and for how long (C70)
-/

namespace Verif.DrFuzz

/-- How often the pass target `n` is on the live stack, in the cache and among those
that were freed. -/
def held (s : St) (n : Nat) : Nat :=
  (s.live.map Pass.pid).count n + (s.cached.map Pass.pid).count n + s.freedP.count n

/-- The invariant of the library's state. -/
structure Inv (s : St) : Prop where
  tidLt : ∀ t ∈ s.targets, t.tid < s.nextT
  pcs : ∀ t ∈ s.targets, ∀ u ∈ s.targets, t.pc = u.pc → t = u
  tids : ∀ t ∈ s.targets, ∀ u ∈ s.targets, t.tid = u.tid → t = u
  passL : ∀ p ∈ s.live, ∃ t ∈ s.targets, t.tid = p.tid ∧ t.pc = p.pc ∧ t.argc = p.argc
  passC : ∀ p ∈ s.cached, p.tid < s.nextT ∧
    ∀ t ∈ s.targets, t.tid = p.tid → t.pc = p.pc ∧ t.argc = p.argc
  once : ∀ n, held s n = if n < s.nextP then 1 else 0
  empty : s.live = [] → s.cached = []
  lens : ∀ p ∈ s.live, p.orig.length = p.argc ∧ p.cur.length = p.argc

theorem inv_init : Inv {} := by
  constructor
  · intro t h; cases h
  · intro t h; cases h
  · intro t h; cases h
  · intro t h; cases h
  · intro t h; cases h
  · intro n; simp [held]
  · intro _; rfl
  · intro t h; cases h

theorem find_mem {s : St} {pc : Nat} {t : Tgt} (h : s.find pc = some t) : t ∈ s.targets :=
  List.mem_of_find?_eq_some h

theorem find_of_mem {s : St} (hi : Inv s) {t : Tgt} (h : t ∈ s.targets) :
    s.find t.pc = some t := by
  cases hf : s.find t.pc with
  | none =>
    exfalso
    have := List.find?_eq_none.1 hf t h
    simp at this
  | some u => rw [hi.pcs u (find_mem hf) t h (find_pc hf)]

theorem alloc_mem {s : St} {n : Nat} (h : s.alloc n = true) : ∃ t ∈ s.targets, t.tid = n := by
  unfold St.alloc at h
  obtain ⟨t, ht, h2⟩ := List.any_eq_true.1 h
  exact ⟨t, ht, by simpa using h2⟩

theorem beforePick_nextT {s s1 : St} (h : beforePick s = .ok s1) : s1.nextT = s.nextT := by
  unfold beforePick at h
  split at h
  · unfold stopIter at h
    split at h
    · cases h
    · injection h with h; subst h; rfl
  · injection h with h; subst h; rfl

theorem freePass_nextT {s s1 : St} {p : Pass} (h : freePass s p = .ok s1) :
    s1.nextT = s.nextT := by
  unfold freePass at h
  cases hu : p.user with
  | none =>
    rw [hu] at h
    dsimp only at h
    split at h
    · injection h with h; subst h; rfl
    · cases h
  | some u =>
    rw [hu] at h
    dsimp only at h
    split at h
    · injection h with h; subst h; rfl
    · cases h

theorem freePasses_nextT {s s1 : St} {ps : List Pass} (h : freePasses s ps = .ok s1) :
    s1.nextT = s.nextT := by
  induction ps generalizing s with
  | nil => rw [freePasses] at h; injection h with h; subst h; rfl
  | cons p ps ih =>
    rw [freePasses] at h
    split at h
    · rename_i s2 h2
      rw [ih h, freePass_nextT h2]
    · cases h

theorem clearCached_nextT {s s1 : St} (h : clearCached s = .ok s1) : s1.nextT = s.nextT := by
  unfold clearCached at h
  split at h
  · rename_i s2 h2
    injection h with h; subst h
    have := freePasses_nextT h2
    exact this
  · cases h

theorem pickPass_nextT {s s1 : St} {t : Tgt} {e : Entry} {p : Pass}
    (h : pickPass s t e = .ok (p, s1)) : s1.nextT = s.nextT := by
  have hact : ∀ r s2, activate s e.pc = .ok (r, s2) → s2.nextT = s.nextT := by
    intro r s2 h
    unfold activate at h
    split at h
    · injection h with h; injection h with h1 h2; subst h2; rfl
    · split at h
      · split at h
        · injection h with h; injection h with h1 h2; subst h2; rfl
        · split at h
          · rename_i s3 h3
            injection h with h; injection h with h1 h2; subst h2; exact clearCached_nextT h3
          · cases h
      · cases h
  have fresh : ∀ (_ : (match activate s e.pc with
      | .error x => .error x
      | .ok (some p, s1) => .ok (enterPass p t e, s1)
      | .ok (none, s1) =>
        let (p, s2) := newPass s1 t e.wrapcxt
        .ok (enterPass p t e, s2) : Except Err (Pass × St)) = .ok (p, s1)),
      s1.nextT = s.nextT := by
    intro hh
    split at hh
    · cases hh
    · rename_i q s2 ha
      injection hh with hh; injection hh with h1 h2; subst h2; exact hact _ _ ha
    · rename_i s2 ha
      simp only [newPass] at hh
      have := hact _ _ ha
      injection hh with hh; injection hh with h1 h2; subst h2; exact this
  unfold pickPass at h
  simp only at h
  split at h
  · split at h
    · injection h with h; injection h with h1 h2; subst h2; rfl
    · exact fresh h
  · exact fresh h

/-- The handler before an iteration keeps the invariant. -/
theorem pre_inv {s s1 : St} {e : Entry} {c : Client} {o : Seen} (hi : Inv s)
    (h : pre s e c = .ok (s1, o)) : Inv s1 ∧ s1.live ≠ [] := by
  obtain ⟨t, s2, s3, p, ht, hb, hp, h1, ho⟩ := pre_eq h
  obtain ⟨a1, a2, a3, -, -, a6, a7, -⟩ := beforePick_eq hb
  have hT2 := beforePick_nextT hb
  have hT3 := pickPass_nextT hp
  obtain ⟨b1, -, -, -, -, -, -, b8⟩ := pickPass_eq (find_pc ht) hp
  have htm := find_mem ht
  have htp := find_pc ht
  have htg : s1.targets = s.targets := by rw [h1]; exact b1.trans a1
  have hnT : s1.nextT = s.nextT := by rw [h1]; exact hT3.trans hT2
  have hlv : s1.live = (runPass p t e c).1 :: s3.live := by rw [h1]
  have hca : s1.cached = s3.cached := by rw [h1]
  have hfr : s1.freedP = s3.freedP := by rw [h1]
  have hnP : s1.nextP = s3.nextP := by rw [h1]
  refine ⟨?_, by rw [hlv]; simp⟩
  rcases b8 with ⟨c1, c2, c3, c4, c5, -⟩ | ⟨c1, c2, q, c3, c4, c5⟩
  · rw [a2] at c1
    have hpl : p ∈ s.live := by rw [c1]; exact List.mem_cons_self
    have hsub : ∀ x ∈ s3.live, x ∈ s.live := fun x hx => by rw [c1]; exact List.mem_cons_of_mem _ hx
    have htt : t.argc = p.argc := by
      obtain ⟨u, hu, -, hu2, hu3⟩ := hi.passL p hpl
      rw [hi.pcs t htm u hu (by rw [htp, hu2, c2])]; exact hu3
    constructor
    · rw [htg, hnT]; exact hi.tidLt
    · rw [htg]; exact hi.pcs
    · rw [htg]; exact hi.tids
    · rw [htg, hlv]
      intro x hx
      simp only [List.mem_cons] at hx
      rcases hx with rfl | hx
      · exact hi.passL p hpl
      · exact hi.passL x (hsub x hx)
    · rw [htg, hnT, hca, c3, a3]; exact hi.passC
    · intro n
      rw [hnP, c4, a6, ← hi.once n]
      unfold held
      rw [hlv, hca, hfr, c3, a3, c5, a7, c1]
      rfl
    · rw [hlv]; intro hx; cases hx
    · rw [hlv]
      intro x hx
      simp only [List.mem_cons] at hx
      rcases hx with rfl | hx
      · refine ⟨(hi.lens p hpl).1, ?_⟩
        show (readArgs _ t.argc).length = p.argc
        rw [readArgs_length, htt]
      · exact hi.lens x (hsub x hx)
  · rw [a2] at c1
    have hp1 : p.tid = q.tid ∧ p.pc = q.pc ∧ p.argc = q.argc ∧ p.pid = q.pid ∧
        p.orig.length = t.argc := by
      rw [c3]; exact ⟨rfl, rfl, rfl, rfl, readArgs_length _ _⟩
    have hq : q.tid = t.tid ∧ q.argc = t.argc := by
      rcases c5 with ⟨d1, d2, -⟩ | ⟨d1, -⟩
      · have hm : q ∈ s.cached := by rw [← a3, d1]; exact List.mem_cons_self
        obtain ⟨u, hu, hu2⟩ := alloc_mem d2
        rw [a1] at hu
        obtain ⟨e1, e2⟩ := (hi.passC q hm).2 u hu hu2
        have := hi.pcs t htm u hu (by rw [htp, e1, c4])
        subst this
        exact ⟨hu2.symm, e2.symm⟩
      · rw [d1]; exact ⟨rfl, rfl⟩
    constructor
    · rw [htg, hnT]; exact hi.tidLt
    · rw [htg]; exact hi.pcs
    · rw [htg]; exact hi.tids
    · rw [htg, hlv]
      intro x hx
      simp only [List.mem_cons] at hx
      rcases hx with rfl | hx
      · refine ⟨t, htm, ?_, ?_, ?_⟩
        · show t.tid = p.tid
          rw [hp1.1, hq.1]
        · show t.pc = p.pc
          rw [hp1.2.1, c4, htp]
        · show t.argc = p.argc
          rw [hp1.2.2.1, hq.2]
      · rw [c1] at hx; exact hi.passL x hx
    · rw [htg, hnT, hca]
      intro x hx
      rcases c5 with ⟨d1, -⟩ | ⟨-, d1, -⟩
      · apply hi.passC; rw [← a3, d1]; exact List.mem_cons_of_mem _ hx
      · rw [d1] at hx; cases hx
    · intro n
      have hn := hi.once n
      unfold held at hn ⊢
      rw [hlv, hca, hfr, hnP, c1, List.map_cons, List.count_cons]
      have hpid : (runPass p t e c).1.pid = q.pid := hp1.2.2.2.1
      rw [hpid]
      rcases c5 with ⟨d1, -, d3, d4, -⟩ | ⟨d1, d2, d3, d4, -⟩
      · rw [d3, a6, d4, a7, ← hn, ← a3, d1, List.map_cons, List.count_cons]
        omega
      · have hqp : q.pid = s.nextP := by rw [d1]; exact a6
        rw [d2, d3, d4, a3, a7, a6, hqp, List.count_append]
        simp only [List.map_nil, List.count_nil]
        by_cases hx : n = s.nextP
        · subst hx
          rw [if_neg (by omega)] at hn
          simp only [beq_self_eq_true, if_true, Nat.lt_succ_self]
          omega
        · have hb : (s.nextP == n) = false := by simp; omega
          rw [hb]
          simp only [Bool.false_eq_true, if_false]
          by_cases hl : n < s.nextP
          · rw [if_pos hl] at hn; rw [if_pos (by omega)]; omega
          · rw [if_neg hl] at hn; rw [if_neg (by omega)]; omega
    · rw [hlv]; intro hx; cases hx
    · rw [hlv]
      intro x hx
      simp only [List.mem_cons] at hx
      rcases hx with rfl | hx
      · refine ⟨?_, ?_⟩
        · show p.orig.length = p.argc
          rw [hp1.2.2.2.2, hp1.2.2.1, hq.2]
        · show (readArgs _ t.argc).length = p.argc
          rw [readArgs_length, hp1.2.2.1, hq.2]
      · rw [c1] at hx; exact hi.lens x hx

/-- Only the targets, the stacks and the counters matter. -/
theorem Inv.congr {s s1 : St} (hi : Inv s) (h1 : s1.targets = s.targets)
    (h2 : s1.live = s.live) (h3 : s1.cached = s.cached) (h4 : s1.nextP = s.nextP)
    (h5 : s1.freedP = s.freedP) (h6 : s1.nextT = s.nextT) : Inv s1 := by
  constructor
  · rw [h1, h6]; exact hi.tidLt
  · rw [h1]; exact hi.pcs
  · rw [h1]; exact hi.tids
  · rw [h1, h2]; exact hi.passL
  · rw [h1, h3, h6]; exact hi.passC
  · intro n; unfold held; rw [h2, h3, h4, h5]; exact hi.once n
  · rw [h2, h3]; exact hi.empty
  · rw [h2]; exact hi.lens

theorem popLive_nextT {s s1 : St} (h : popLive s = .ok s1) : s1.nextT = s.nextT := by
  unfold popLive at h
  split at h
  · cases h
  · simp only at h
    split at h
    · have := clearCached_nextT h
      exact this
    · injection h with h; subst h; rfl

theorem popLive_inv {s s1 : St} (hi : Inv s) (h : popLive s = .ok s1) : Inv s1 := by
  obtain ⟨p, hl, a1, a2, -, -, -, -, -, -, a3⟩ := popLive_eq h
  have hT := popLive_nextT h
  have hpl : p ∈ s.live := by rw [hl]; exact List.mem_cons_self
  have hsub : ∀ x ∈ s1.live, x ∈ s.live := fun x hx => by rw [hl]; exact List.mem_cons_of_mem _ hx
  constructor
  · rw [a1, hT]; exact hi.tidLt
  · rw [a1]; exact hi.pcs
  · rw [a1]; exact hi.tids
  · rw [a1]; intro x hx; exact hi.passL x (hsub x hx)
  · rw [a1, hT]
    intro x hx
    rcases a3 with ⟨-, d1, -⟩ | ⟨-, d1, -⟩
    · rw [d1] at hx
      simp only [List.mem_cons] at hx
      rcases hx with rfl | hx
      · obtain ⟨t, ht, e1, e2, e3⟩ := hi.passL x hpl
        refine ⟨by rw [← e1]; exact hi.tidLt t ht, ?_⟩
        intro u hu hu2
        have := hi.tids u hu t ht (hu2.trans e1.symm)
        subst this
        exact ⟨e2, e3⟩
      · exact hi.passC x hx
    · rw [d1] at hx; cases hx
  · intro n
    have hn := hi.once n
    unfold held at hn ⊢
    rw [a2, ← hn, hl, List.map_cons, List.count_cons]
    rcases a3 with ⟨-, d1, d2, -⟩ | ⟨d0, d1, d2, -⟩
    · rw [d1, d2, List.map_cons, List.count_cons]; omega
    · rw [d0, d1, d2, List.map_cons, List.count_append, List.count_cons]
      simp only [List.map_nil, List.count_nil]; omega
  · intro hx
    rcases a3 with ⟨d0, -⟩ | ⟨-, d1, -⟩
    · exact absurd hx d0
    · exact d1
  · intro x hx; exact hi.lens x (hsub x hx)

theorem bb_target {t : Tgt} {n : Nat} :
    let t' := if t.tid = n then { t with bbs := t.bbs + 1 } else t
    t'.tid = t.tid ∧ t'.pc = t.pc ∧ t'.argc = t.argc := by
  intro t'
  simp only [t']
  split <;> exact ⟨rfl, rfl, rfl⟩

theorem step_inv {s s1 : St} {e : Ev} {o : List Seen} (hi : Inv s)
    (h : step s e = .ok (s1, o)) : Inv s1 := by
  cases e with
  | fuzz pc argc =>
    rw [step] at h
    injection h with h
    injection h with h1 h2
    subst h1
    unfold fuzzTarget
    split
    · exact hi
    · split
      · exact hi
      · rename_i hn hf
        have hnew : ∀ t ∈ s.targets, t.pc ≠ pc := by
          intro t ht hp
          have := List.find?_eq_none.1 hf t ht
          simp [hp] at this
        constructor
        · intro t ht
          simp only [List.mem_append, List.mem_singleton] at ht
          rcases ht with ht | rfl
          · exact Nat.lt_succ_of_lt (hi.tidLt t ht)
          · exact Nat.lt_succ_self _
        · intro t ht u hu hp
          simp only [List.mem_append, List.mem_singleton] at ht hu
          rcases ht with ht | rfl <;> rcases hu with hu | rfl
          · exact hi.pcs t ht u hu hp
          · exact absurd hp (hnew t ht)
          · exact absurd hp.symm (hnew u hu)
          · rfl
        · intro t ht u hu hp
          simp only [List.mem_append, List.mem_singleton] at ht hu
          rcases ht with ht | rfl <;> rcases hu with hu | rfl
          · exact hi.tids t ht u hu hp
          · exact absurd (hi.tidLt t ht) (by rw [hp]; exact Nat.lt_irrefl _)
          · exact absurd (hi.tidLt u hu) (by rw [← hp]; exact Nat.lt_irrefl _)
          · rfl
        · intro p hp
          obtain ⟨t, ht, h3⟩ := hi.passL p hp
          exact ⟨t, List.mem_append_left _ ht, h3⟩
        · intro p hp
          obtain ⟨h3, h4⟩ := hi.passC p hp
          refine ⟨Nat.lt_succ_of_lt h3, ?_⟩
          intro t ht
          simp only [List.mem_append, List.mem_singleton] at ht
          rcases ht with ht | rfl
          · exact h4 t ht
          · intro hx
            simp only at hx
            omega
        · exact hi.once
        · exact hi.empty
        · exact hi.lens
  | unfuzz pc =>
    rw [step] at h
    injection h with h
    injection h with h1 h2
    subst h1
    unfold unfuzzTarget
    split
    · exact hi
    · split
      · exact hi
      · rename_i hl
        have hno : ∀ p ∈ s.live, p.pc ≠ pc := by
          intro p hp
          have := List.find?_eq_none.1 hl p hp
          simpa using this
        have hm : ∀ t ∈ s.targets.filter (fun t => t.pc != pc), t ∈ s.targets :=
          fun t ht => (List.mem_filter.1 ht).1
        constructor
        · intro t ht; exact hi.tidLt t (hm t ht)
        · intro t ht u hu; exact hi.pcs t (hm t ht) u (hm u hu)
        · intro t ht u hu; exact hi.tids t (hm t ht) u (hm u hu)
        · intro p hp
          obtain ⟨t, ht, h3, h4, h5⟩ := hi.passL p hp
          refine ⟨t, List.mem_filter.2 ⟨ht, ?_⟩, h3, h4, h5⟩
          have := hno p hp
          rw [← h4] at this
          simpa using this
        · intro p hp
          obtain ⟨h3, h4⟩ := hi.passC p hp
          exact ⟨h3, fun t ht => h4 t (hm t ht)⟩
        · exact hi.once
        · exact hi.empty
        · exact hi.lens
  | call e c =>
    rw [step] at h
    split at h
    · cases h
    · rename_i s2 o2 h2
      injection h with h
      injection h with h3 h4
      subst h3
      exact (pre_inv hi h2).1
  | rep j c =>
    rw [step] at h
    split at h
    · cases h
    · rename_i s2 o2 h2
      injection h with h
      injection h with h3 h4
      subst h3
      unfold again at h2
      split at h2
      · cases h2
      · exact (pre_inv hi h2).1
  | ret =>
    rw [step] at h
    split at h
    · cases h
    · rename_i s2 h2
      injection h with h
      injection h with h3 h4
      subst h3
      exact popLive_inv hi h2
  | bb =>
    rw [step] at h
    injection h with h
    injection h with h1 h2
    subst h1
    unfold bbEvent
    split
    · exact hi
    · rename_i p ps hl
      have hm : ∀ t ∈ s.targets.map (fun t => if t.tid = p.tid then { t with bbs := t.bbs + 1 }
          else t), ∃ t0 ∈ s.targets, t = (if t0.tid = p.tid then { t0 with bbs := t0.bbs + 1 }
          else t0) := by
        intro t ht
        obtain ⟨t0, h0, rfl⟩ := List.mem_map.1 ht
        exact ⟨t0, h0, rfl⟩
      have hm2 : ∀ t0 ∈ s.targets, (if t0.tid = p.tid then { t0 with bbs := t0.bbs + 1 }
          else t0) ∈ s.targets.map (fun t => if t.tid = p.tid then { t with bbs := t.bbs + 1 }
          else t) := fun t0 h0 => List.mem_map.2 ⟨t0, h0, rfl⟩
      constructor
      · intro t ht
        obtain ⟨t0, h0, rfl⟩ := hm t ht
        rw [bb_target.1]; exact hi.tidLt t0 h0
      · intro t ht u hu hp
        obtain ⟨t0, h0, rfl⟩ := hm t ht
        obtain ⟨u0, h1, rfl⟩ := hm u hu
        rw [bb_target.2.1, bb_target.2.1] at hp
        rw [hi.pcs t0 h0 u0 h1 hp]
      · intro t ht u hu hp
        obtain ⟨t0, h0, rfl⟩ := hm t ht
        obtain ⟨u0, h1, rfl⟩ := hm u hu
        rw [bb_target.1, bb_target.1] at hp
        rw [hi.tids t0 h0 u0 h1 hp]
      · intro q hq
        obtain ⟨t, ht, h3, h4, h5⟩ := hi.passL q hq
        exact ⟨_, hm2 t ht, bb_target.1.trans h3, bb_target.2.1.trans h4, bb_target.2.2.trans h5⟩
      · intro q hq
        obtain ⟨h3, h4⟩ := hi.passC q hq
        refine ⟨h3, ?_⟩
        intro t ht
        obtain ⟨t0, h0, rfl⟩ := hm t ht
        rw [bb_target.1, bb_target.2.1, bb_target.2.2]
        exact h4 t0 h0
      · exact hi.once
      · exact hi.empty
      · exact hi.lens
  | fault code a =>
    rw [step] at h
    split at h
    · cases h
    · rename_i s2 h2
      injection h with h
      injection h with h3 h4
      subst h3
      obtain ⟨a1, a2, a3, a4, a5, -, a7⟩ := faultEvent_eq h2
      exact hi.congr a1 a2 a3 a4 a5 a7
  | user pc v =>
    rw [step] at h
    injection h with h
    injection h with h1 h2
    subst h1
    unfold setUser
    split
    · exact hi
    · rename_i q hq
      have hm : ∀ p ∈ s.live.map (fun p => if p.pid = q.pid then { p with user := v } else p),
          ∃ p0 ∈ s.live, p.tid = p0.tid ∧ p.pc = p0.pc ∧ p.argc = p0.argc ∧ p.orig = p0.orig ∧
            p.cur = p0.cur := by
        intro p hp
        obtain ⟨p0, hp0, rfl⟩ := List.mem_map.1 hp
        refine ⟨p0, hp0, ?_⟩
        split <;> exact ⟨rfl, rfl, rfl, rfl, rfl⟩
      constructor
      · exact hi.tidLt
      · exact hi.pcs
      · exact hi.tids
      · intro p hp
        obtain ⟨p0, hp0, e1, e2, e3, -⟩ := hm p hp
        rw [e1, e2, e3]; exact hi.passL p0 hp0
      · exact hi.passC
      · intro n
        rw [← hi.once n]
        unfold held
        simp only [List.map_map]
        congr 3
        apply List.map_congr_left
        intro p _
        simp only [Function.comp]
        split <;> rfl
      · intro hx
        apply hi.empty
        simpa using hx
      · intro p hp
        obtain ⟨p0, hp0, -, -, e3, e4, e5⟩ := hm p hp
        rw [e3, e4, e5]; exact hi.lens p0 hp0

theorem run_inv {evs : List Ev} {s s1 : St} {o : List Seen} (hi : Inv s)
    (h : run s evs = .ok (s1, o)) : Inv s1 := by
  induction evs generalizing s o with
  | nil =>
    rw [run] at h
    injection h with h
    injection h with h1 h2
    subst h1; exact hi
  | cons e es ih =>
    rw [run] at h
    split at h
    · cases h
    · rename_i s2 o1 h1
      split at h
      · cases h
      · rename_i s3 o2 h2
        injection h with h
        injection h with h3 h4
        subst h3
        exact ih (step_inv hi h1) h2

theorem exit_eq {s s1 : St} {r : Option Report} (h : threadExit s = .ok (s1, r)) :
    s1.nextP = s.nextP ∧
      s1.freedP = s.freedP ++ s.live.map Pass.pid ++ s.cached.map Pass.pid ∧
      s1.deleted = s.deleted ++ s.live.filterMap Pass.user ++ s.cached.filterMap Pass.user ∧
      s1.fdeleted = s.fdeleted ++ s.faults := by
  unfold threadExit at h
  simp only at h
  split at h
  · cases h
  · rename_i s2 r2 hc
    have hs2 : s2.nextP = s.nextP ∧ s2.freedP = s.freedP ∧ s2.live = s.live ∧
        s2.cached = s.cached ∧ s2.deleted = s.deleted ∧ s2.fdeleted = s.fdeleted ∧
        s2.faults = s.faults := by
      split at hc
      · injection hc with hc; injection hc with h1 h2; subst h1
        exact ⟨rfl, rfl, rfl, rfl, rfl, rfl, rfl⟩
      · split at hc
        · injection hc with hc; injection hc with h1 h2; subst h1
          exact ⟨rfl, rfl, rfl, rfl, rfl, rfl, rfl⟩
        · split at hc
          · cases hc
          · rename_i it s3 h3
            unfold mkIter at h3
            split at h3
            · cases h3
            · injection h3 with h3; injection h3 with h4 h5; subst h5; subst h4
              injection hc with hc; injection hc with h1 h2; subst h1
              exact ⟨rfl, rfl, rfl, rfl, rfl, rfl, rfl⟩
    obtain ⟨e1, e2, e3, e4, e5, e6, e7⟩ := hs2
    split at h
    · cases h
    · rename_i s3 hst
      have hs3 : s3.nextP = s2.nextP ∧ s3.freedP = s2.freedP ∧ s3.live = s2.live ∧
          s3.cached = s2.cached ∧ s3.deleted = s2.deleted ∧ s3.fdeleted = s2.fdeleted ∧
          s3.faults = s2.faults := by
        split at hst
        · unfold stopIter at hst
          split at hst
          · cases hst
          · injection hst with hst; subst hst; exact ⟨rfl, rfl, rfl, rfl, rfl, rfl, rfl⟩
        · injection hst with hst; subst hst; exact ⟨rfl, rfl, rfl, rfl, rfl, rfl, rfl⟩
      obtain ⟨f1, f2, f3, f4, f5, f6, f7⟩ := hs3
      split at h
      · cases h
      · rename_i s4 h4
        obtain ⟨-, -, b3, -, -, -, -, b8, b9, b10, b11, -⟩ := freePasses_eq h4
        split at h
        · cases h
        · rename_i s5 h5
          obtain ⟨-, -, -, -, -, -, -, c8, c9, c10, c11, -⟩ := clearCached_eq h5
          injection h with h
          injection h with h6 h7
          subst h6
          simp only at b3 b8 b9 b10 b11 c8 c9 c10 c11
          refine ⟨?_, ?_, ?_, ?_⟩
          · rw [c8, b8, f1, e1]
          · rw [c9, b9, b3, f2, f3, f4, e2, e3, e4]
          · rw [c10, b10, b3, f3, f4, f5, e3, e4, e5]
          · rw [c11, b11, f6, f7, e6, e7]

/-- C70.  Everything the library keeps for a call of a target is freed exactly once:
when the outermost target has returned all of it is gone, and at the exit of the
thread all of it is gone, wherever the application was. -/
theorem C70_memory (evs : List Ev) (s : St) (obs : List Seen) (h : run {} evs = .ok (s, obs)) :
    (∀ n, s.freedP.count n ≤ 1) ∧
      (s.live = [] → ∀ n, s.freedP.count n = if n < s.nextP then 1 else 0) ∧
      ∀ s1 r, threadExit s = .ok (s1, r) →
        ∀ n, s1.freedP.count n = if n < s.nextP then 1 else 0 := by
  have hi := run_inv inv_init h
  refine ⟨?_, ?_, ?_⟩
  · intro n
    have := hi.once n
    unfold held at this
    split at this <;> omega
  · intro hl n
    have := hi.once n
    unfold held at this
    rw [hl, hi.empty hl] at this
    simpa using this
  · intro s1 r hx n
    obtain ⟨h1, h2, -⟩ := exit_eq hx
    rw [h2, List.count_append, List.count_append, ← hi.once n]
    unfold held
    omega

/-- C70.  `drfuzz_get_arg` for the original value gives the argument the application
passed in the innermost call of the target that has not returned, and fails when
there is none. -/
theorem C70_get_arg (w : Nat) (evs : List Ev) (s : St) (obs : List Seen) (pc i : Nat)
    (hok : okRun w {} evs) (h : run {} evs = .ok (s, obs)) :
    getArg s (some pc) i true =
      ((Spec.run {} evs).1.calls.find? (fun f => f.pc == pc)).bind (fun f => f.args[i]?) := by
  have hi := run_inv inv_init h
  have hc := (C70_iterations w evs s obs hok h).2
  rw [← hc, List.find?_map]
  have hcomp : ((fun f : Call => f.pc == pc) ∘ Pass.call) = fun p : Pass => p.pc == pc := rfl
  rw [hcomp]
  unfold getArg lookupLive
  simp only
  cases hf : s.live.find? (fun p => p.pc == pc) with
  | none => rfl
  | some p =>
    have hp := (hi.lens p (List.mem_of_find?_eq_some hf)).1
    simp only [Option.map_some, Option.bind_some, if_true]
    by_cases hx : p.argc ≤ i
    · rw [if_pos hx]
      show none = p.orig[i]?
      rw [List.getElem?_eq_none (by omega)]
    · rw [if_neg hx]; rfl

end Verif.DrFuzz
