import Verif.DrFuzzMem

/-!
# Dr. Fuzz: client data, the cache, block counts, and runs without errors (C70)
-/

namespace Verif.DrFuzz

/-! ## The client's data -/

/-- The data the client has handed over with this event. -/
def attachedBy (s : St) : Ev → List Nat
  | .user pc (some u) => if (lookupLive s pc).isSome then [u] else []
  | _ => []

/-- All the data the client hands over in a run. -/
def attached : St → List Ev → List Nat
  | _, [] => []
  | s, e :: es =>
    attachedBy s e ++ (match step s e with
      | .ok (s1, _) => attached s1 es
      | .error _ => [])

/-- The client gives data only to a target that has none. -/
def tidyEv (s : St) : Ev → Prop
  | .user pc _ => ∀ q, lookupLive s pc = some q → q.user = none
  | _ => True

/-- It does so in the whole run. -/
def tidy : St → List Ev → Prop
  | _, [] => True
  | s, e :: es => tidyEv s e ∧ (match step s e with
      | .ok (s1, _) => tidy s1 es
      | .error _ => True)

/-- How often this data is held for a target or has been deleted. -/
def owned (s : St) (u : Nat) : Nat :=
  (s.live.filterMap Pass.user).count u + (s.cached.filterMap Pass.user).count u +
    s.deleted.count u

theorem filterMap_cons_count (p : Pass) (ps : List Pass) (u : Nat) :
    ((p :: ps).filterMap Pass.user).count u =
      (p.user.toList).count u + (ps.filterMap Pass.user).count u := by
  rw [List.filterMap_cons]
  cases p.user with
  | none => simp
  | some v => simp [List.count_cons]; omega

theorem setUser_ident {L : List Pass} {n : Nat} {v : Option Nat}
    (h : (L.map Pass.pid).count n = 0) :
    L.map (fun p => if p.pid = n then { p with user := v } else p) = L := by
  have : ∀ p ∈ L, p.pid ≠ n := by
    intro p hp hx
    have := List.count_eq_zero.1 h
    exact this (List.mem_map.2 ⟨p, hp, hx⟩)
  conv => rhs; rw [← List.map_id L]
  apply List.map_congr_left
  intro p hp
  rw [if_neg (this p hp)]; rfl

theorem setUser_count {L : List Pass} {q : Pass} {v : Option Nat} (hq : q ∈ L)
    (hu : q.user = none) (hc : (L.map Pass.pid).count q.pid ≤ 1) (u : Nat) :
    ((L.map (fun p => if p.pid = q.pid then { p with user := v } else p)).filterMap
        Pass.user).count u = (L.filterMap Pass.user).count u + (v.toList).count u := by
  induction L with
  | nil => cases hq
  | cons p L ih =>
    rw [List.map_cons, List.count_cons] at hc
    rw [List.map_cons, filterMap_cons_count, filterMap_cons_count]
    by_cases hp : p.pid = q.pid
    · rw [hp] at hc
      simp only [beq_self_eq_true, if_true] at hc
      have h0 : (L.map Pass.pid).count q.pid = 0 := by omega
      have hpq : q = p := by
        simp only [List.mem_cons] at hq
        rcases hq with h | h
        · exact h
        · exact absurd (List.mem_map.2 ⟨q, h, rfl⟩) (List.count_eq_zero.1 h0)
      rw [setUser_ident h0, if_pos hp, ← hpq, hu]
      simp; omega
    · rw [if_neg hp]
      have hq2 : q ∈ L := by
        simp only [List.mem_cons] at hq
        rcases hq with h | h
        · exact absurd (congrArg Pass.pid h.symm) hp
        · exact h
      rw [ih hq2 (by split at hc <;> omega)]
      omega

theorem pre_owned {s s1 : St} {e : Entry} {c : Client} {o : Seen}
    (h : pre s e c = .ok (s1, o)) (u : Nat) : owned s1 u = owned s u := by
  obtain ⟨t, s2, s3, p, ht, hb, hp, h1, ho⟩ := pre_eq h
  obtain ⟨-, a2, a3, -, -, -, -, a8, -⟩ := beforePick_eq hb
  obtain ⟨-, -, -, -, -, -, -, b8⟩ := pickPass_eq (find_pc ht) hp
  have hlv : s1.live = (runPass p t e c).1 :: s3.live := by rw [h1]
  have hca : s1.cached = s3.cached := by rw [h1]
  have hde : s1.deleted = s3.deleted := by rw [h1]
  have hus : (runPass p t e c).1.user = p.user := rfl
  unfold owned
  rw [hlv, hca, hde, filterMap_cons_count, hus]
  rcases b8 with ⟨c1, -, c3, -, -, c6⟩ | ⟨c1, -, q, c3, -, c5⟩
  · rw [a2] at c1
    rw [c1, c3, c6, a3, a8, filterMap_cons_count]
  · have hpu : p.user = q.user := by rw [c3]; rfl
    rw [c1, a2, hpu]
    rcases c5 with ⟨d1, -, -, -, d5⟩ | ⟨d1, d2, -, -, d5⟩
    · rw [d5, a8, ← a3, d1, filterMap_cons_count]; omega
    · have hq : q.user = none := by rw [d1]; rfl
      rw [d5, a8, d2, hq, a3, List.count_append]
      simp; omega

theorem step_owned {s s1 : St} {e : Ev} {o : List Seen} (hi : Inv s) (ht : tidyEv s e)
    (h : step s e = .ok (s1, o)) (u : Nat) :
    owned s1 u = owned s u + (attachedBy s e).count u := by
  cases e with
  | fuzz pc argc =>
    rw [step] at h
    injection h with h; injection h with h1 h2; subst h1
    unfold fuzzTarget
    split
    · simp [attachedBy]
    · split <;> simp [attachedBy, owned]
  | unfuzz pc =>
    rw [step] at h
    injection h with h; injection h with h1 h2; subst h1
    unfold unfuzzTarget
    split
    · simp [attachedBy]
    · split <;> simp [attachedBy, owned]
  | call e c =>
    rw [step] at h
    split at h
    · cases h
    · rename_i s2 o2 h2
      injection h with h; injection h with h3 h4; subst h3
      rw [pre_owned h2]; simp [attachedBy]
  | rep j c =>
    rw [step] at h
    split at h
    · cases h
    · rename_i s2 o2 h2
      injection h with h; injection h with h3 h4; subst h3
      unfold again at h2
      split at h2
      · cases h2
      · rw [pre_owned h2]; simp [attachedBy]
  | ret =>
    rw [step] at h
    split at h
    · cases h
    · rename_i s2 h2
      injection h with h; injection h with h3 h4; subst h3
      obtain ⟨p, hl, -, -, -, -, -, -, -, -, a⟩ := popLive_eq h2
      have ha : (attachedBy s .ret).count u = 0 := by simp [attachedBy]
      rw [ha]
      unfold owned
      rw [hl, filterMap_cons_count]
      rcases a with ⟨-, d1, -, d3⟩ | ⟨d0, d1, -, d3⟩
      · rw [d1, d3, filterMap_cons_count]; omega
      · rw [d0, d1, d3, List.count_append, filterMap_cons_count]; simp; omega
  | bb =>
    rw [step] at h
    injection h with h; injection h with h1 h2; subst h1
    unfold bbEvent
    split <;> simp [attachedBy, owned]
  | fault code a =>
    rw [step] at h
    split at h
    · cases h
    · rename_i s2 h2
      injection h with h; injection h with h3 h4; subst h3
      obtain ⟨-, a2, a3, -⟩ := faultEvent_eq h2
      have hd : s2.deleted = s.deleted := by
        unfold faultEvent at h2
        have hput : ∀ s : St, (putFault (dropLast s) code a).deleted = s.deleted := by
          intro s
          unfold putFault dropLast
          simp only
          split <;> split <;> rfl
        split at h2
        · injection h2 with h2; subst h2; rw [hput]; rfl
        · split at h2
          · cases h2
          · rename_i it s3 h5
            injection h2 with h2; subst h2
            unfold mkIter at h5
            split at h5
            · cases h5
            · injection h5 with h5; injection h5 with h6 h7; subst h7
              rw [hput]
      simp [attachedBy, owned, a2, a3, hd]
  | user pc v =>
    rw [step] at h
    injection h with h; injection h with h1 h2; subst h1
    unfold setUser
    cases hl : lookupLive s pc with
    | none =>
      dsimp only
      cases v <;> simp [attachedBy, hl]
    | some q =>
      dsimp only
      have hq : q ∈ s.live := List.mem_of_find?_eq_some hl
      have hn := hi.once q.pid
      have hle : (s.live.map Pass.pid).count q.pid ≤ 1 := by
        unfold held at hn
        split at hn <;> omega
      have hcnt := setUser_count (v := v) hq (ht q hl) hle u
      unfold owned
      simp only
      rw [hcnt]
      cases v with
      | none => simp [attachedBy]
      | some w => simp [attachedBy, hl]; omega

theorem run_owned {evs : List Ev} {s s1 : St} {o : List Seen} (hi : Inv s) (ht : tidy s evs)
    (h : run s evs = .ok (s1, o)) (u : Nat) :
    owned s1 u = owned s u + (attached s evs).count u := by
  induction evs generalizing s o with
  | nil =>
    rw [run] at h
    injection h with h; injection h with h1 h2; subst h1
    simp [attached]
  | cons e es ih =>
    rw [run] at h
    split at h
    · cases h
    · rename_i s2 o1 h1
      split at h
      · cases h
      · rename_i s3 o2 h2
        injection h with h; injection h with h3 h4; subst h3
        have ht2 : tidyEv s e ∧ (match step s e with
            | .ok (s1, _) => tidy s1 es
            | .error _ => True) := ht
        rw [h1] at ht2
        rw [ih (step_inv hi h1) ht2.2 h2, step_owned hi ht2.1 h1]
        rw [attached, h1, List.count_append]
        dsimp only
        omega

/-- C70.  The data a client hands over for a target is deleted exactly once: all of it when
the outermost target has returned, and all of it at the exit of the thread.  Until
then none is deleted more than once. -/
theorem C70_user_data (evs : List Ev) (s : St) (obs : List Seen) (ht : tidy {} evs)
    (h : run {} evs = .ok (s, obs)) (u : Nat) :
    s.deleted.count u ≤ (attached {} evs).count u ∧
      (s.live = [] → s.deleted.count u = (attached {} evs).count u) ∧
      ∀ s1 r, threadExit s = .ok (s1, r) → s1.deleted.count u = (attached {} evs).count u := by
  have hi := run_inv inv_init h
  have ho := run_owned inv_init ht h u
  have h0 : owned {} u = 0 := by simp [owned]
  rw [h0, Nat.zero_add] at ho
  unfold owned at ho
  refine ⟨by omega, ?_, ?_⟩
  · intro hl
    rw [hl, hi.empty hl] at ho
    simpa using ho
  · intro s1 r hx
    obtain ⟨-, -, h3, -⟩ := exit_eq hx
    rw [h3, List.count_append, List.count_append]
    omega

/-! ## The cache keeps data from one iteration to the next -/

/-- No target on the list is the one before it. -/
def chainNe : List Pass → Prop
  | p :: q :: ps => p.pc ≠ q.pc ∧ chainNe (q :: ps)
  | _ => True

/-- What the client's data is attached to. -/
def Pass.ident (p : Pass) : Nat × Nat × Option Nat := (p.pid, p.pc, p.user)

theorem rets_state (top : List Pass) (b : Pass) (rest : List Pass) (s : St)
    (hl : s.live = top ++ b :: rest) :
    ∃ s1, run s (List.replicate top.length .ret) = .ok (s1, []) ∧ s1.live = b :: rest ∧
      s1.cached = top.reverse ++ s.cached ∧ s1.targets = s.targets ∧ s1.iter = s.iter ∧
      s1.freedI = s.freedI := by
  induction top generalizing s with
  | nil => exact ⟨s, rfl, hl, rfl, rfl, rfl, rfl⟩
  | cons p top ih =>
    have hp : popLive s = .ok { s with live := top ++ b :: rest, cached := p :: s.cached } := by
      unfold popLive
      rw [hl]
      simp
    obtain ⟨s1, h1, h2, h3, h4, h5, h6⟩ :=
      ih { s with live := top ++ b :: rest, cached := p :: s.cached } rfl
    refine ⟨s1, ?_, h2, ?_, h4, h5, h6⟩
    · rw [List.length_cons, List.replicate_succ, run, step, hp]
      simp only
      rw [h1]
      rfl
    · rw [h3]; simp

theorem calls_state (es : List (Entry × Client)) (cs : List Pass) (s s1 : St) (o : List Seen)
    (rest : List Pass) (hc : s.cached = cs ++ rest)
    (hes : es.map (fun x => x.1.pc) = cs.map Pass.pc)
    (hne : ∀ q ∈ s.live.head?, ∀ p ∈ cs.head?, q.pc ≠ p.pc)
    (hch : chainNe cs.reverse)
    (h : run s (es.map (fun x => .call x.1 x.2)) = .ok (s1, o)) :
    s1.live.map Pass.ident = (cs.reverse ++ s.live).map Pass.ident ∧ s1.cached = rest := by
  induction es generalizing cs s o with
  | nil =>
    cases cs with
    | nil =>
      rw [List.map_nil, run] at h
      injection h with h; injection h with h1 h2; subst h1
      exact ⟨by simp, by simpa using hc⟩
    | cons c cs => simp at hes
  | cons x es ih =>
    cases cs with
    | nil => simp at hes
    | cons p cs =>
      simp only [List.map_cons, List.cons.injEq] at hes
      rw [List.map_cons, run] at h
      split at h
      · cases h
      · rename_i s2 o1 h1
        split at h
        · cases h
        · rename_i s3 o2 h2
          injection h with h; injection h with h3 h4; subst h3
          rw [step] at h1
          split at h1
          · cases h1
          · rename_i s4 o4 h5
            injection h1 with h1; injection h1 with h6 h7; subst h6
            obtain ⟨t, s5, s6, p', ht, hb, hp, h8, ho⟩ := pre_eq h5
            obtain ⟨-, a2, a3, -⟩ := beforePick_eq hb
            obtain ⟨-, -, -, -, -, -, -, b8⟩ := pickPass_eq (find_pc ht) hp
            rcases b8 with ⟨c1, c2, -⟩ | ⟨c1, -, q, c3, c4, c5⟩
            · exfalso
              rw [a2] at c1
              exact hne p' (by rw [c1]; rfl) p rfl (c2.trans hes.1)
            · rw [a2] at c1
              rw [a3, hc] at c5
              have hpick : q = p ∧ s6.cached = cs ++ rest := by
                rcases c5 with ⟨d1, -⟩ | ⟨-, -, d3, -⟩
                · injection d1 with d1 d2
                  exact ⟨d1.symm, d2.symm⟩
                · exfalso
                  clear c3 h8 ho hne hch ih
                  -- the cache's top is for this target, so it is used
                  unfold pickPass activate at hp
                  simp only [a3, hc, List.cons_append] at hp
                  rw [if_pos hes.1.symm] at hp
                  have hal : s5.alloc p.tid = true := by
                    by_cases hx : s5.alloc p.tid = true
                    · exact hx
                    · exfalso
                      rw [if_neg hx] at hp
                      simp only at hp
                      split at hp
                      · rename_i y ys hy
                        split at hp
                        · rename_i hz
                          injection hp with hp
                          injection hp with e1 e2
                          subst e2
                          rw [a2] at hy
                          simp only at c1
                          rw [hy] at c1
                          have := congrArg List.length c1
                          simp at this
                        · cases hp
                      · cases hp
                  rw [if_pos hal] at hp
                  simp only at hp
                  have hpid : s6.nextP = s5.nextP := by
                    split at hp
                    · split at hp
                      · injection hp with hp; injection hp with e1 e2; subst e2; rfl
                      · injection hp with hp; injection hp with e1 e2; subst e2; rfl
                    · injection hp with hp; injection hp with e1 e2; subst e2; rfl
                  omega
              obtain ⟨hqp, hca⟩ := hpick
              have hlive : s4.live = (runPass p' t x.1 x.2).1 :: s.live := by rw [h8, c1]
              have hcach : s4.cached = cs ++ rest := by rw [h8]; exact hca
              have hid : (runPass p' t x.1 x.2).1.ident = p.ident := by
                rw [c3, hqp]; rfl
              have hpc : (runPass p' t x.1 x.2).1.pc = p.pc := by
                rw [c3, hqp]; rfl
              rw [List.reverse_cons] at hch
              have hsplit : ∀ (l : List Pass), chainNe (l ++ [p]) →
                  chainNe l ∧ ∀ q ∈ l.getLast?, q.pc ≠ p.pc := by
                intro l
                induction l with
                | nil => intro _; exact ⟨trivial, by simp⟩
                | cons a l ihl =>
                  intro hh
                  cases l with
                  | nil =>
                    refine ⟨trivial, ?_⟩
                    intro q hq
                    simp only [List.getLast?_singleton, Option.mem_def, Option.some.injEq] at hq
                    subst hq; exact hh.1
                  | cons b l =>
                    obtain ⟨i1, i2⟩ := ihl hh.2
                    refine ⟨⟨hh.1, i1⟩, ?_⟩
                    intro q hq
                    apply i2
                    simpa using hq
              obtain ⟨g1, g2⟩ := hsplit _ hch
              obtain ⟨r1, r2⟩ := ih cs s4 o2 hcach hes.2 (by
                rw [hlive]
                intro q' hq' p'' hp''
                simp only [List.head?_cons, Option.mem_def, Option.some.injEq] at hq'
                subst hq'
                rw [hpc]
                intro hx
                apply g2 p''
                · rw [List.getLast?_reverse]; exact hp''
                · exact hx.symm) g1 h2
              refine ⟨?_, r2⟩
              rw [r1, hlive]
              simp [hid]

theorem run_append {xs ys : List Ev} {s s2 : St} {o : List Seen}
    (h : run s (xs ++ ys) = .ok (s2, o)) :
    ∃ s1 o1 o2, run s xs = .ok (s1, o1) ∧ run s1 ys = .ok (s2, o2) ∧ o = o1 ++ o2 := by
  induction xs generalizing s o with
  | nil => exact ⟨s, [], o, rfl, h, rfl⟩
  | cons e xs ih =>
    rw [List.cons_append, run] at h
    split at h
    · cases h
    · rename_i s3 o3 h3
      split at h
      · cases h
      · rename_i s4 o4 h4
        injection h with h; injection h with h5 h6; subst h5; subst h6
        obtain ⟨s1, o1, o2, a1, a2, a3⟩ := ih h4
        refine ⟨s1, o3 ++ o1, o2, ?_, a2, ?_⟩
        · rw [run, h3]; dsimp only; rw [a1]
        · rw [a3, List.append_assoc]

theorem chain_last {l : List Pass} {p : Pass} (h : chainNe (l ++ [p])) :
    chainNe l ∧ ∀ q ∈ l.getLast?, q.pc ≠ p.pc := by
  induction l with
  | nil => exact ⟨trivial, by simp⟩
  | cons a l ihl =>
    cases l with
    | nil =>
      refine ⟨trivial, ?_⟩
      intro q hq
      simp only [List.getLast?_singleton, Option.mem_def, Option.some.injEq] at hq
      subst hq; exact h.1
    | cons b l =>
      obtain ⟨i1, i2⟩ := ihl h.2
      refine ⟨⟨h.1, i1⟩, ?_⟩
      intro q hq
      apply i2
      simpa using hq

/-- C70.  When the target `b` is repeated and the new iteration calls the same targets
again, one inside the other, as the last one did, each of them finds the data the
client gave it in the last iteration. -/
theorem C70_cache (s s1 : St) (o : List Seen) (top : List Pass) (b : Pass) (rest : List Pass)
    (j : Entry) (c : Client) (es : List (Entry × Client)) (hl : s.live = top ++ b :: rest)
    (hch : chainNe (top ++ [b]))
    (hes : es.map (fun x => x.1.pc) = top.reverse.map Pass.pc)
    (h : run s (List.replicate top.length .ret ++ [.rep j c] ++
      es.map (fun x => .call x.1 x.2)) = .ok (s1, o)) :
    s1.live.map Pass.ident = s.live.map Pass.ident := by
  obtain ⟨s3, o3, o4, a1, a2, -⟩ := run_append h
  obtain ⟨s2, o5, o6, b1, b2, -⟩ := run_append a1
  obtain ⟨s2', r1, r2, r3, -⟩ := rets_state top b rest s hl
  rw [r1] at b1
  injection b1 with b1; injection b1 with b3 b4; subst b3
  rw [run] at b2
  split at b2
  · cases b2
  · rename_i s4 o7 h4
    rw [run] at b2
    dsimp only at b2
    injection b2 with b2; injection b2 with b5 b6; subst b5
    rw [step] at h4
    split at h4
    · cases h4
    · rename_i s5 o8 h5
      injection h4 with h4; injection h4 with b7 b8; subst b7
      unfold again at h5
      rw [r2] at h5
      dsimp only at h5
      obtain ⟨t, s6, s7, p, ht, hb, hp, h1, ho⟩ := pre_eq h5
      obtain ⟨-, d2, d3, -⟩ := beforePick_eq hb
      obtain ⟨-, -, -, -, -, -, -, b8⟩ := pickPass_eq (find_pc ht) hp
      obtain ⟨g1, g2⟩ := chain_last hch
      rcases b8 with ⟨c1, -, c3, -⟩ | ⟨-, c2, -⟩
      · rw [d2, r2] at c1
        injection c1 with c1 c4
        have hlive : s5.live = (runPass p t { j with pc := b.pc, xsp := b.xsp } c).1 :: rest := by
          rw [h1, ← c4]
        have hcach : s5.cached = top.reverse ++ s.cached := by
          rw [h1]; show s7.cached = _; rw [c3, d3, r3]
        have hid : (runPass p t { j with pc := b.pc, xsp := b.xsp } c).1.ident = b.ident := by
          rw [← c1]; rfl
        have hpc : (runPass p t { j with pc := b.pc, xsp := b.xsp } c).1.pc = b.pc := by
          rw [← c1]; rfl
        obtain ⟨q1, -⟩ := calls_state es top.reverse s5 s1 o4 s.cached hcach hes (by
          rw [hlive]
          intro q hq p' hp' hx
          simp only [List.head?_cons, Option.mem_def, Option.some.injEq] at hq
          subst hq
          rw [hpc] at hx
          rw [List.head?_reverse] at hp'
          exact g2 p' hp' hx.symm) (by rw [List.reverse_reverse]; exact g1) a2
        rw [q1, hlive, hl]
        simp [hid]
      · exfalso
        exact c2 b (by rw [d2, r2]; rfl) rfl

/-! ## The count of basic blocks -/

/-- The count for `pc` after one event. -/
def blockStep (pc : Nat) (σ : Spec) (n : Nat) : Ev → Nat
  | .bb => if (σ.calls.head?.map Call.pc) = some pc then n + 1 else n
  | .fuzz pc' _ => if pc' = pc ∧ (σ.argc pc).isNone then 0 else n
  | _ => n

/-- How many blocks are built while a call of `pc` is the innermost, since it was
registered. -/
def blocks (pc : Nat) : Spec → List Ev → Nat → Nat
  | _, [], n => n
  | σ, e :: es, n => blocks pc (σ.step e).1 es (blockStep pc σ n e)

theorem find_bbs_congr {s s1 : St} (h : s1.targets = s.targets) {pc n : Nat}
    (hn : ∀ t, s.find pc = some t → t.bbs = n) : ∀ t, s1.find pc = some t → t.bbs = n := by
  intro t ht
  rw [find_congr h] at ht
  exact hn t ht

theorem pre_targets {s s1 : St} {e : Entry} {c : Client} {o : Seen}
    (h : pre s e c = .ok (s1, o)) : s1.targets = s.targets := by
  obtain ⟨t, s2, s3, p, ht, hb, hp, h1, ho⟩ := pre_eq h
  obtain ⟨a1, -⟩ := beforePick_eq hb
  obtain ⟨b1, -⟩ := pickPass_eq (find_pc ht) hp
  rw [h1]; exact b1.trans a1

theorem blocks_run {w pc : Nat} {evs : List Ev} {s s1 : St} {σ : Spec} {o : List Seen} {n : Nat}
    (hr : Rel w s σ) (hi : Inv s) (hok : okRun w σ evs) (h : run s evs = .ok (s1, o))
    (hn : ∀ t, s.find pc = some t → t.bbs = n) :
    ∀ t, s1.find pc = some t → t.bbs = blocks pc σ evs n := by
  induction evs generalizing s σ o n with
  | nil =>
    rw [run] at h
    injection h with h; injection h with h1 h2; subst h1
    exact hn
  | cons e es ih =>
    rw [run] at h
    split at h
    · cases h
    · rename_i s2 o1 h1
      split at h
      · cases h
      · rename_i s3 o2 h2
        injection h with h; injection h with h3 h4; subst h3
        rw [blocks]
        refine ih (step_rel hr hok.1 h1).1 (step_inv hi h1) hok.2 h2 ?_
        cases e with
        | fuzz pc' argc =>
          rw [step] at h1
          injection h1 with h1; injection h1 with h5 h6; subst h5
          simp only [blockStep]
          unfold fuzzTarget
          by_cases h0 : pc' = 0
          · rw [if_pos h0]
            intro t ht
            rw [if_neg]
            · exact hn t ht
            · rintro ⟨-, hx⟩
              rw [hr.argc] at hx
              dsimp only at ht
              rw [ht] at hx; cases hx
          · rw [if_neg h0]
            cases hf : s.find pc' with
            | some t' =>
              dsimp only
              intro t ht
              rw [if_neg]
              · exact hn t ht
              · rintro ⟨-, hx⟩
                rw [hr.argc, ht] at hx; cases hx
            | none =>
              dsimp only
              intro t ht
              simp only [St.find, List.find?_append] at ht
              cases hg : s.find pc with
              | some t' =>
                have hg' := hg
                simp only [St.find] at hg
                rw [hg] at ht
                simp only [Option.some_or, Option.some.injEq] at ht
                subst ht
                rw [if_neg]
                · exact hn _ hg'
                · rintro ⟨-, hx⟩
                  rw [hr.argc, hg'] at hx; cases hx
              | none =>
                have hg' := hg
                simp only [St.find] at hg
                rw [hg] at ht
                simp only [Option.none_or] at ht
                rw [List.find?_cons] at ht
                by_cases hpp : pc' = pc
                · subst hpp
                  simp only [beq_self_eq_true, Option.some.injEq] at ht
                  subst ht
                  rw [if_pos ⟨rfl, by rw [hr.argc, hg']; rfl⟩]
                · have : (pc' == pc) = false := by simp [hpp]
                  simp [this] at ht
        | unfuzz pc' =>
          rw [step] at h1
          injection h1 with h1; injection h1 with h5 h6; subst h5
          unfold unfuzzTarget
          split
          · exact hn
          · split
            · exact hn
            · intro t ht
              by_cases hp : pc = pc'
              · exfalso
                have hm := List.mem_of_find?_eq_some ht
                have hq := List.find?_some ht
                have hm2 := (List.mem_filter.1 hm).2
                simp only [beq_iff_eq] at hq
                simp [hq, hp] at hm2
              · apply hn
                simp only [St.find] at ht ⊢
                rw [find_filter hp] at ht
                exact ht
        | call e c =>
          rw [step] at h1
          split at h1
          · cases h1
          · rename_i s4 o4 h5
            injection h1 with h1; injection h1 with h6 h7; subst h6
            exact find_bbs_congr (pre_targets h5) hn
        | rep j c =>
          rw [step] at h1
          split at h1
          · cases h1
          · rename_i s4 o4 h5
            injection h1 with h1; injection h1 with h6 h7; subst h6
            unfold again at h5
            split at h5
            · cases h5
            · exact find_bbs_congr (pre_targets h5) hn
        | ret =>
          rw [step] at h1
          split at h1
          · cases h1
          · rename_i s4 h5
            injection h1 with h1; injection h1 with h6 h7; subst h6
            obtain ⟨-, -, a1, -⟩ := popLive_eq h5
            exact find_bbs_congr a1 hn
        | bb =>
          rw [step] at h1
          injection h1 with h1; injection h1 with h5 h6; subst h5
          simp only [blockStep]
          rw [hr.calls]
          unfold bbEvent
          split
          · rename_i hl
            rw [hl]
            rw [if_neg (by simp)]
            exact hn
          · rename_i p ps hl
            intro t ht
            rw [hl]
            simp only [List.map_cons, List.head?_cons, Option.map_some, Option.some.injEq]
            simp only [St.find] at ht
            rw [List.find?_map] at ht
            have hcomp : ((fun t : Tgt => t.pc == pc) ∘ fun t =>
                if t.tid = p.tid then { t with bbs := t.bbs + 1 } else t) =
                (fun t : Tgt => t.pc == pc) := by
              funext t
              simp only [Function.comp]
              split <;> rfl
            rw [hcomp] at ht
            cases hf : s.find pc with
            | none =>
              simp only [St.find] at hf
              rw [hf] at ht; cases ht
            | some t0 =>
              have hf' := hf
              simp only [St.find] at hf
              rw [hf] at ht
              simp only [Option.map_some, Option.some.injEq] at ht
              subst ht
              have hb := hn t0 hf'
              obtain ⟨u, hu, e1, e2, -⟩ := hi.passL p (by rw [hl]; exact List.mem_cons_self)
              show _ = if p.pc = pc then n + 1 else n
              by_cases hpc : p.pc = pc
              · rw [if_pos hpc]
                have : t0 = u := hi.pcs t0 (find_mem hf') u hu (by
                  rw [find_pc hf', e2, hpc])
                rw [if_pos (by rw [this]; exact e1)]
                show t0.bbs + 1 = n + 1
                rw [hb]
              · rw [if_neg hpc, if_neg]
                · exact hb
                · intro hx
                  apply hpc
                  have : t0 = u := hi.tids t0 (find_mem hf') u hu (by rw [hx, e1])
                  rw [← e2, ← this, find_pc hf']
        | fault code a =>
          rw [step] at h1
          split at h1
          · cases h1
          · rename_i s4 h5
            injection h1 with h1; injection h1 with h6 h7; subst h6
            obtain ⟨a1, -⟩ := faultEvent_eq h5
            exact find_bbs_congr a1 hn
        | user pc' v =>
          rw [step] at h1
          injection h1 with h1; injection h1 with h5 h6; subst h5
          refine find_bbs_congr ?_ hn
          unfold setUser
          split <;> rfl

/-- C70.  `drfuzz_get_target_num_bbs` counts the blocks built while a call of the target is
the innermost call of a target, and no others. -/
theorem C70_blocks (w : Nat) (evs : List Ev) (s : St) (obs : List Seen) (pc : Nat) (t : Tgt)
    (hok : okRun w {} evs) (h : run {} evs = .ok (s, obs)) (ht : s.find pc = some t) :
    t.bbs = blocks pc {} evs 0 :=
  blocks_run (rel_init w) inv_init hok h (by intro t ht; cases ht) t ht

/-! ## Runs without faults -/

/-- The application calls registered targets, only a call that was made returns, no
fault happens, and no target is unregistered. -/
def plainEv (σ : Spec) : Ev → Prop
  | .call e _ => (σ.argc e.pc).isSome
  | .rep _ _ => σ.calls ≠ []
  | .ret => σ.calls ≠ []
  | .fault _ _ => False
  | .unfuzz _ => False
  | _ => True

/-- Every event is such an event. -/
def plainRun : Spec → List Ev → Prop
  | _, [] => True
  | σ, e :: es => plainEv σ e ∧ plainRun (σ.step e).1 es

/-- What a run without faults keeps. -/
structure Calm (s : St) : Prop where
  iter : s.iter = none
  alloc : ∀ p ∈ s.cached, s.alloc p.tid = true
  allocL : ∀ p ∈ s.live, s.alloc p.tid = true

theorem alloc_congr {s s1 : St} (h : s1.targets = s.targets) (n : Nat) :
    s1.alloc n = s.alloc n := by
  unfold St.alloc; rw [h]

theorem freePass_ok {s : St} {p : Pass} (h : s.alloc p.tid = true) :
    ∃ s1, freePass s p = .ok s1 := by
  unfold freePass
  cases p.user with
  | none => dsimp only; rw [if_pos h]; exact ⟨_, rfl⟩
  | some u =>
    have h' : St.alloc { s with deleted := s.deleted ++ [u] } p.tid = true := h
    dsimp only; rw [if_pos h']; exact ⟨_, rfl⟩

theorem freePasses_ok {ps : List Pass} {s : St} (h : ∀ p ∈ ps, s.alloc p.tid = true) :
    ∃ s1, freePasses s ps = .ok s1 := by
  induction ps generalizing s with
  | nil => exact ⟨s, rfl⟩
  | cons p ps ih =>
    obtain ⟨s1, h1⟩ := freePass_ok (h p List.mem_cons_self)
    rw [freePasses, h1]
    dsimp only
    apply ih
    intro q hq
    rw [alloc_congr (freePass_eq h1).1]
    exact h q (List.mem_cons_of_mem _ hq)

theorem clearCached_ok {s : St} (h : ∀ p ∈ s.cached, s.alloc p.tid = true) :
    ∃ s1, clearCached s = .ok s1 := by
  obtain ⟨s1, h1⟩ := freePasses_ok h
  exact ⟨_, by rw [clearCached, h1]⟩

theorem activate_ok {s : St} (h : ∀ p ∈ s.cached, s.alloc p.tid = true) (pc : Nat) :
    ∃ r, activate s pc = .ok r := by
  unfold activate
  cases hc : s.cached with
  | nil => exact ⟨_, rfl⟩
  | cons p ps =>
    dsimp only
    rw [if_pos (h p (by rw [hc]; exact List.mem_cons_self))]
    split
    · exact ⟨_, rfl⟩
    · obtain ⟨s1, h1⟩ := clearCached_ok h
      rw [h1]; exact ⟨_, rfl⟩

theorem pickPass_ok {s : St} (h : ∀ p ∈ s.cached, s.alloc p.tid = true) (t : Tgt) (e : Entry) :
    ∃ r, pickPass s t e = .ok r := by
  have fresh : ∃ r, (match activate s e.pc with
      | .error x => .error x
      | .ok (some p, s1) => .ok (enterPass p t e, s1)
      | .ok (none, s1) =>
        let (p, s2) := newPass s1 t e.wrapcxt
        .ok (enterPass p t e, s2) : Except Err (Pass × St)) = .ok r := by
    obtain ⟨⟨r, s1⟩, h1⟩ := activate_ok h e.pc
    rw [h1]
    cases r <;> exact ⟨_, rfl⟩
  unfold pickPass
  simp only
  split
  · split
    · exact ⟨_, rfl⟩
    · exact fresh
  · exact fresh

theorem pre_ok {s : St} {e : Entry} {c : Client} {t : Tgt} (hc : Calm s)
    (ht : s.find e.pc = some t) : ∃ r, pre s e c = .ok r := by
  have hit : (clearFaults s).iter = none := hc.iter
  obtain ⟨⟨p, s3⟩, h3⟩ := pickPass_ok (s := clearFaults s) hc.alloc t e
  unfold pre
  rw [ht]
  simp only [hit, h3]
  exact ⟨_, rfl⟩

theorem pre_calm {s s1 : St} {e : Entry} {c : Client} {o : Seen} (hi : Inv s) (hc : Calm s)
    (h : pre s e c = .ok (s1, o)) : Calm s1 := by
  have hi1 := (pre_inv hi h).1
  have hall : ∀ p ∈ s1.live, s1.alloc p.tid = true := by
    intro p hp
    obtain ⟨t, ht, e1, -⟩ := hi1.passL p hp
    unfold St.alloc
    exact List.any_eq_true.2 ⟨t, ht, by simp [e1]⟩
  obtain ⟨t, s2, s3, p, ht, hb, hp, h1, ho⟩ := pre_eq h
  obtain ⟨a1, a2, a3, a4, -⟩ := beforePick_eq hb
  obtain ⟨b1, b2, -, -, -, -, -, b8⟩ := pickPass_eq (find_pc ht) hp
  have htg : s1.targets = s.targets := by rw [h1]; exact b1.trans a1
  have hca : s1.cached = s3.cached := by rw [h1]
  have hsub : ∀ x ∈ s3.cached, x ∈ s.cached := by
    intro x hx
    rw [← a3]
    rcases b8 with ⟨-, -, c3, -⟩ | ⟨-, -, q, -, -, c5⟩
    · rw [c3] at hx; exact hx
    · rcases c5 with ⟨d1, -⟩ | ⟨-, d1, -⟩
      · rw [d1]; exact List.mem_cons_of_mem _ hx
      · rw [d1] at hx; cases hx
  constructor
  · rw [h1]; show s3.iter = none; rw [b2, a4]; exact hc.iter
  · intro q hq
    rw [alloc_congr htg]
    rw [hca] at hq
    exact hc.alloc q (hsub q hq)
  · exact hall

theorem step_calm {w : Nat} {s : St} {σ : Spec} {e : Ev} (hr : Rel w s σ) (hi : Inv s)
    (hc : Calm s) (hp : plainEv σ e) : ∃ s1 o, step s e = .ok (s1, o) ∧ Calm s1 := by
  cases e with
  | fuzz pc argc =>
    refine ⟨_, _, rfl, ?_⟩
    unfold fuzzTarget
    split
    · exact hc
    · split
      · exact hc
      · constructor
        · exact hc.iter
        · intro p hp
          have := hc.alloc p hp
          unfold St.alloc at this ⊢
          simp only [List.any_append, this, Bool.true_or]
        · intro p hp
          have := hc.allocL p hp
          unfold St.alloc at this ⊢
          simp only [List.any_append, this, Bool.true_or]
  | unfuzz pc => exact absurd hp (by simp [plainEv])
  | call e c =>
    have hp' : (σ.argc e.pc).isSome = true := hp
    rw [hr.argc] at hp'
    cases hf : s.find e.pc with
    | none => rw [hf] at hp'; cases hp'
    | some t =>
      obtain ⟨⟨s1, o⟩, h1⟩ := pre_ok (c := c) hc hf
      exact ⟨s1, [o], by rw [step, h1], pre_calm hi hc h1⟩
  | rep j c =>
    have hp' : σ.calls ≠ [] := hp
    cases hl : s.live with
    | nil => rw [hr.calls, hl] at hp'; exact absurd rfl hp'
    | cons p ps =>
      obtain ⟨t, ht, -⟩ := hr.args p (by rw [hl]; exact List.mem_cons_self)
      obtain ⟨⟨s1, o⟩, h1⟩ := pre_ok (e := { j with pc := p.pc, xsp := p.xsp }) (c := c) hc ht
      refine ⟨s1, [o], ?_, pre_calm hi hc h1⟩
      rw [step]
      unfold again
      rw [hl]
      dsimp only
      rw [h1]
  | ret =>
    have hp' : σ.calls ≠ [] := hp
    cases hl : s.live with
    | nil => rw [hr.calls, hl] at hp'; exact absurd rfl hp'
    | cons p ps =>
      have hall : ∀ q ∈ p :: s.cached, s.alloc q.tid = true := by
        intro q hq
        simp only [List.mem_cons] at hq
        rcases hq with rfl | hq
        · exact hc.allocL q (by rw [hl]; exact List.mem_cons_self)
        · exact hc.alloc q hq
      have hok : ∃ s1, popLive s = .ok s1 := by
        unfold popLive
        rw [hl]
        simp only
        split
        · exact clearCached_ok (s := { s with live := ps, cached := p :: s.cached }) hall
        · exact ⟨_, rfl⟩
      obtain ⟨s1, h1⟩ := hok
      refine ⟨s1, [], by rw [step, h1], ?_⟩
      obtain ⟨p', hl', a1, -, a3, -, -, -, -, -, a2⟩ := popLive_eq h1
      constructor
      · rw [a3]; exact hc.iter
      · intro q hq
        rw [alloc_congr a1]
        rw [hl] at hl'
        injection hl' with e1 e2
        subst e1
        rcases a2 with ⟨-, d1, -⟩ | ⟨-, d1, -⟩
        · rw [d1] at hq; exact hall q hq
        · rw [d1] at hq; cases hq
      · intro q hq
        rw [alloc_congr a1]
        apply hc.allocL
        rw [hl']; exact List.mem_cons_of_mem _ hq
  | bb =>
    refine ⟨_, _, rfl, ?_⟩
    unfold bbEvent
    split
    · exact hc
    · rename_i p ps hl
      have key : ∀ n, s.alloc n = true →
          St.alloc { s with targets := s.targets.map (fun t =>
            if t.tid = p.tid then { t with bbs := t.bbs + 1 } else t) } n = true := by
        intro n hn
        unfold St.alloc at hn ⊢
        obtain ⟨t, ht, h2⟩ := List.any_eq_true.1 hn
        refine List.any_eq_true.2 ⟨_, List.mem_map.2 ⟨t, ht, rfl⟩, ?_⟩
        rw [bb_target.1]; exact h2
      constructor
      · exact hc.iter
      · intro q hq; exact key _ (hc.alloc q hq)
      · intro q hq; exact key _ (hc.allocL q hq)
  | fault code a => exact absurd hp (by simp [plainEv])
  | user pc v =>
    refine ⟨_, _, rfl, ?_⟩
    unfold setUser
    split
    · exact hc
    · constructor
      · exact hc.iter
      · exact hc.alloc
      · intro q hq
        simp only [List.mem_map] at hq
        obtain ⟨q0, h0, rfl⟩ := hq
        have := hc.allocL q0 h0
        split <;> exact this

theorem run_calm {w : Nat} {evs : List Ev} {s : St} {σ : Spec} (hr : Rel w s σ) (hi : Inv s)
    (hc : Calm s) (hok : okRun w σ evs) (hp : plainRun σ evs) :
    ∃ s1 o, run s evs = .ok (s1, o) ∧ Calm s1 ∧ Inv s1 := by
  induction evs generalizing s σ with
  | nil => exact ⟨s, [], rfl, hc, hi⟩
  | cons e es ih =>
    obtain ⟨s1, o1, h1, hc1⟩ := step_calm hr hi hc hp.1
    obtain ⟨s2, o2, h2, hc2, hi2⟩ := ih (step_rel hr hok.1 h1).1 (step_inv hi h1) hc1 hok.2 hp.2
    exact ⟨s2, o1 ++ o2, by rw [run, h1]; dsimp only; rw [h2], hc2, hi2⟩

/-- C70, as far as it is true.  A run in which the application calls registered targets and
returns from them, whatever the client does to arguments and data, never reads or frees
memory it should not.  Missing: faults (`C70_fault_twice`) and the removal of targets
(`C70_unfuzz_cached`). -/
theorem C70_safe_partial (w : Nat) (evs : List Ev) (hok : okRun w {} evs)
    (hp : plainRun {} evs) : ∃ s obs, run {} evs = .ok (s, obs) := by
  obtain ⟨s, o, h, -⟩ := run_calm (rel_init w) inv_init
    ⟨rfl, (by intro p h; cases h), (by intro p h; cases h)⟩ hok hp
  exact ⟨s, o, h⟩

end Verif.DrFuzz
