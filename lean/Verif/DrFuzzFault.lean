import Verif.DrFuzzMore

/-!
# Dr. Fuzz: faults, crash reports, and what goes wrong (C70)
-/

namespace Verif.DrFuzz

/-! ## The chain of faults -/

/-- The faults of the current iteration, after one event: a new iteration starts with
none; a fault outside any target stands alone. -/
def chainStep (σ : Spec) (ch : List Nat) : Ev → List Nat
  | .call _ _ => []
  | .rep _ _ => []
  | .fault code _ => if σ.calls = [] then [code] else ch ++ [code]
  | _ => ch

/-- The faults of the current iteration after a run. -/
def chain : Spec → List Nat → List Ev → List Nat
  | _, ch, [] => ch
  | σ, ch, e :: es => chain (σ.step e).1 (chainStep σ ch e) es

/-- The first and the last of a list. -/
def firstLast : List Nat → List Nat
  | [] => []
  | [a] => [a]
  | a :: b :: l => [a, l.getLastD b]

theorem firstLast_snoc (a b : Nat) (l : List Nat) : firstLast (a :: (l ++ [b])) = [a, b] := by
  cases l with
  | nil => rfl
  | cons c l => simp [firstLast]

theorem putFault_faults (s : St) (code : Nat) (a : Option Nat) :
    (putFault s code a).faults.map Fault.code = s.faults.map Fault.code ++ [code] ∧
      (putFault s code a).observed = s.observed + 1 := by
  unfold putFault
  simp only
  split <;> simp

/-- The recorded faults after one more in a chain. -/
theorem put_chain {s : St} {ch : List Nat} {code : Nat} {a : Option Nat}
    (h1 : s.faults.map Fault.code = firstLast ch) (h2 : s.observed = ch.length) :
    (putFault (dropLast s) code a).faults.map Fault.code = firstLast (ch ++ [code]) ∧
      (putFault (dropLast s) code a).observed = (ch ++ [code]).length := by
  obtain ⟨e1, e2⟩ := putFault_faults (dropLast s) code a
  have hobs : (dropLast s).observed = s.observed := by
    unfold dropLast; split <;> rfl
  refine ⟨?_, by rw [e2, hobs, h2]; simp⟩
  rw [e1]
  have hlen : s.faults.length = (firstLast ch).length := by rw [← h1]; simp
  match ch with
  | [] =>
    have : dropLast s = s := by
      unfold dropLast
      rw [if_neg (by rw [hlen]; simp [firstLast])]
    rw [this, h1]; rfl
  | [x] =>
    have : dropLast s = s := by
      unfold dropLast
      rw [if_neg (by rw [hlen]; simp [firstLast])]
    rw [this, h1]; rfl
  | x :: y :: l =>
    have h3 : (dropLast s).faults = s.faults.take 1 := by
      unfold dropLast
      rw [if_pos (by rw [hlen]; rfl)]
    rw [h3, List.map_take, h1, List.cons_append, firstLast_snoc]
    rfl

theorem faultEvent_chain {s s1 : St} {ch : List Nat} {code : Nat} {a : Option Nat}
    (h1 : s.faults.map Fault.code = firstLast ch) (h2 : s.observed = ch.length)
    (h : faultEvent s code a = .ok s1) :
    s1.faults.map Fault.code = firstLast (if s.live = [] then [code] else ch ++ [code]) ∧
      s1.observed = (if s.live = [] then [code] else ch ++ [code]).length := by
  unfold faultEvent at h
  split at h
  · rename_i hl
    injection h with h; subst h
    rw [if_pos hl]
    exact put_chain (s := clearFaults s) (ch := []) rfl rfl
  · rename_i p ps hl
    rw [if_neg (by rw [hl]; simp)]
    split at h
    · cases h
    · rename_i it s2 h3
      injection h with h; subst h
      unfold mkIter at h3
      split at h3
      · cases h3
      · injection h3 with h3; injection h3 with h4 h5; subst h5
        exact put_chain h1 h2

theorem pre_faults {s s1 : St} {e : Entry} {c : Client} {o : Seen}
    (h : pre s e c = .ok (s1, o)) :
    s1.faults = [] ∧ s1.observed = 0 ∧ s1.fdeleted = s.fdeleted ++ s.faults ∧
      s1.iter = s.iter ∧ (∀ it ∈ s.iter, it.id ∉ s.freedI ∧ it.id ∈ s1.freedI) := by
  obtain ⟨t, s2, s3, p, ht, hb, hp, h1, ho⟩ := pre_eq h
  obtain ⟨-, -, -, a4, -, -, -, -, a9, a10, a11, a12, a13⟩ := beforePick_eq hb
  obtain ⟨-, b2, b3, -, b5, b6, b7, -⟩ := pickPass_eq (find_pc ht) hp
  refine ⟨?_, ?_, ?_, ?_, ?_⟩
  · rw [h1]; exact b5.trans a9
  · rw [h1]; exact b7.trans a10
  · rw [h1]; exact b6.trans a11
  · rw [h1]; exact b2.trans a4
  · intro it hit
    refine ⟨a13 it hit, ?_⟩
    rw [h1]
    show it.id ∈ s3.freedI
    rw [b3, a12, show s.iter = some it from hit]
    simp

theorem step_chain {w : Nat} {s s1 : St} {σ : Spec} {e : Ev} {o : List Seen} {ch : List Nat}
    (hr : Rel w s σ) (h1 : s.faults.map Fault.code = firstLast ch) (h2 : s.observed = ch.length)
    (h : step s e = .ok (s1, o)) :
    s1.faults.map Fault.code = firstLast (chainStep σ ch e) ∧
      s1.observed = (chainStep σ ch e).length := by
  cases e with
  | fuzz pc argc =>
    rw [step] at h
    injection h with h; injection h with h3 h4; subst h3
    unfold fuzzTarget
    split
    · exact ⟨h1, h2⟩
    · split <;> exact ⟨h1, h2⟩
  | unfuzz pc =>
    rw [step] at h
    injection h with h; injection h with h3 h4; subst h3
    unfold unfuzzTarget
    split
    · exact ⟨h1, h2⟩
    · split <;> exact ⟨h1, h2⟩
  | call e c =>
    rw [step] at h
    split at h
    · cases h
    · rename_i s2 o2 h5
      injection h with h; injection h with h3 h4; subst h3
      obtain ⟨a, b, -⟩ := pre_faults h5
      rw [a, b]; exact ⟨rfl, rfl⟩
  | rep j c =>
    rw [step] at h
    split at h
    · cases h
    · rename_i s2 o2 h5
      injection h with h; injection h with h3 h4; subst h3
      unfold again at h5
      split at h5
      · cases h5
      · obtain ⟨a, b, -⟩ := pre_faults h5
        rw [a, b]; exact ⟨rfl, rfl⟩
  | ret =>
    rw [step] at h
    split at h
    · cases h
    · rename_i s2 h5
      injection h with h; injection h with h3 h4; subst h3
      obtain ⟨-, -, -, -, -, -, -, a, -, b, -⟩ := popLive_eq h5
      rw [a, b]; exact ⟨h1, h2⟩
  | bb =>
    rw [step] at h
    injection h with h; injection h with h3 h4; subst h3
    unfold bbEvent
    split <;> exact ⟨h1, h2⟩
  | fault code a =>
    rw [step] at h
    split at h
    · cases h
    · rename_i s2 h5
      injection h with h; injection h with h3 h4; subst h3
      have := faultEvent_chain h1 h2 h5
      have hiff : σ.calls = [] ↔ s.live = [] := by rw [hr.calls]; simp
      simp only [chainStep]
      by_cases hl : s.live = []
      · rw [if_pos (hiff.2 hl)]; rw [if_pos hl] at this; exact this
      · rw [if_neg (fun x => hl (hiff.1 x))]; rw [if_neg hl] at this; exact this
  | user pc v =>
    rw [step] at h
    injection h with h; injection h with h3 h4; subst h3
    unfold setUser
    split <;> exact ⟨h1, h2⟩

theorem run_chain {w : Nat} {evs : List Ev} {s s1 : St} {σ : Spec} {o : List Seen}
    {ch : List Nat} (hr : Rel w s σ) (h1 : s.faults.map Fault.code = firstLast ch)
    (h2 : s.observed = ch.length) (hok : okRun w σ evs) (h : run s evs = .ok (s1, o)) :
    s1.faults.map Fault.code = firstLast (chain σ ch evs) ∧
      s1.observed = (chain σ ch evs).length := by
  induction evs generalizing s σ o ch with
  | nil =>
    rw [run] at h
    injection h with h; injection h with h3 h4; subst h3
    exact ⟨h1, h2⟩
  | cons e es ih =>
    rw [run] at h
    split at h
    · cases h
    · rename_i s2 o1 h3
      split at h
      · cases h
      · rename_i s3 o2 h4
        injection h with h; injection h with h5 h6; subst h5
        obtain ⟨a, b⟩ := step_chain hr h1 h2 h3
        exact ih (step_rel hr hok.1 h3).1 a b hok.2 h4

/-- C70.  What is recorded of the faults is the first and the last fault of the current
iteration, and their number. -/
theorem C70_faults (w : Nat) (evs : List Ev) (s : St) (obs : List Seen) (hok : okRun w {} evs)
    (h : run {} evs = .ok (s, obs)) :
    s.faults.map Fault.code = firstLast (chain {} [] evs) ∧
      s.observed = (chain {} [] evs).length :=
  run_chain (rel_init w) rfl rfl hok h

/-- The faults with this number that happen in a run. -/
def faultCount (k : Nat) : List Ev → Nat
  | [] => 0
  | .fault code _ :: es => (if code = k then 1 else 0) + faultCount k es
  | _ :: es => faultCount k es

/-- How often a fault is recorded or was handed to the delete callback. -/
def kept (s : St) (k : Nat) : Nat :=
  (s.faults.map Fault.code).count k + (s.fdeleted.map Fault.code).count k

theorem put_kept (s : St) (code : Nat) (a : Option Nat) (k : Nat) :
    kept (putFault (dropLast s) code a) k = kept s k + (if code = k then 1 else 0) := by
  have h1 := (putFault_faults (dropLast s) code a).1
  obtain ⟨-, -, -, -, -, -, -, -, h2, -⟩ := putFault_eq (dropLast s) code a
  unfold kept
  rw [h1, h2]
  unfold dropLast
  split
  · simp only [List.count_append, List.map_append, List.count_cons, List.count_nil]
    have hsplit : (s.faults.map Fault.code).count k =
        ((s.faults.take 1).map Fault.code).count k +
          ((s.faults.drop 1).map Fault.code).count k := by
      rw [← List.count_append, ← List.map_append, List.take_append_drop]
    simp only [beq_iff_eq]
    split <;> omega
  · simp only [List.count_append, List.count_cons, List.count_nil, beq_iff_eq]
    split <;> omega

theorem kept_congr {s s1 : St} (h1 : s1.faults = s.faults) (h2 : s1.fdeleted = s.fdeleted)
    (k : Nat) : kept s1 k = kept s k := by
  unfold kept; rw [h1, h2]

theorem kept_clear (s : St) (k : Nat) : kept (clearFaults s) k = kept s k := by
  unfold kept clearFaults
  simp only [List.map_append, List.count_append, List.map_nil, List.count_nil]
  omega

theorem step_kept {s s1 : St} {e : Ev} {o : List Seen} (h : step s e = .ok (s1, o)) (k : Nat) :
    kept s1 k = kept s k + faultCount k [e] := by
  cases e with
  | fuzz pc argc =>
    rw [step] at h
    injection h with h; injection h with h3 h4; subst h3
    unfold fuzzTarget
    split
    · rfl
    · split <;> rfl
  | unfuzz pc =>
    rw [step] at h
    injection h with h; injection h with h3 h4; subst h3
    unfold unfuzzTarget
    split
    · rfl
    · split <;> rfl
  | call e c =>
    rw [step] at h
    split at h
    · cases h
    · rename_i s2 o2 h5
      injection h with h; injection h with h3 h4; subst h3
      obtain ⟨a, -, b, -⟩ := pre_faults h5
      rw [show kept s2 k = kept (clearFaults s) k from kept_congr a b k, kept_clear]; rfl
  | rep j c =>
    rw [step] at h
    split at h
    · cases h
    · rename_i s2 o2 h5
      injection h with h; injection h with h3 h4; subst h3
      unfold again at h5
      split at h5
      · cases h5
      · obtain ⟨a, -, b, -⟩ := pre_faults h5
        rw [show kept s2 k = kept (clearFaults s) k from kept_congr a b k, kept_clear]; rfl
  | ret =>
    rw [step] at h
    split at h
    · cases h
    · rename_i s2 h5
      injection h with h; injection h with h3 h4; subst h3
      obtain ⟨-, -, -, -, -, -, -, a, b, -⟩ := popLive_eq h5
      rw [kept_congr a b]; rfl
  | bb =>
    rw [step] at h
    injection h with h; injection h with h3 h4; subst h3
    unfold bbEvent
    split <;> rfl
  | fault code a =>
    rw [step] at h
    split at h
    · cases h
    · rename_i s2 h5
      injection h with h; injection h with h3 h4; subst h3
      simp only [faultCount, Nat.add_zero]
      unfold faultEvent at h5
      split at h5
      · injection h5 with h5; subst h5
        rw [put_kept, kept_clear]
      · split at h5
        · cases h5
        · rename_i it s3 h6
          injection h5 with h5; subst h5
          unfold mkIter at h6
          split at h6
          · cases h6
          · injection h6 with h6; injection h6 with h7 h8; subst h8
            rw [put_kept]; rfl
  | user pc v =>
    rw [step] at h
    injection h with h; injection h with h3 h4; subst h3
    unfold setUser
    split <;> rfl

theorem faultCount_cons (k : Nat) (e : Ev) (es : List Ev) :
    faultCount k (e :: es) = faultCount k [e] + faultCount k es := by
  cases e <;> simp [faultCount]

theorem run_kept {evs : List Ev} {s s1 : St} {o : List Seen} (h : run s evs = .ok (s1, o))
    (k : Nat) : kept s1 k = kept s k + faultCount k evs := by
  induction evs generalizing s o with
  | nil =>
    rw [run] at h
    injection h with h; injection h with h3 h4; subst h3; rfl
  | cons e es ih =>
    rw [run] at h
    split at h
    · cases h
    · rename_i s2 o1 h3
      split at h
      · cases h
      · rename_i s3 o2 h4
        injection h with h; injection h with h5 h6; subst h5
        rw [ih h4, step_kept h3, faultCount_cons k e es]; omega

/-- C70.  Every fault the client was told of is handed to the delete callback once: not yet
while it is recorded, and at the latest at the exit of the thread. -/
theorem C70_fault_delete (evs : List Ev) (s : St) (obs : List Seen)
    (h : run {} evs = .ok (s, obs)) (k : Nat) :
    (s.faults.map Fault.code).count k + (s.fdeleted.map Fault.code).count k =
        faultCount k evs ∧
      ∀ s1 r, threadExit s = .ok (s1, r) →
        (s1.fdeleted.map Fault.code).count k = faultCount k evs := by
  have hk := run_kept h k
  have h0 : kept {} k = 0 := by simp [kept]
  rw [h0, Nat.zero_add] at hk
  refine ⟨hk, ?_⟩
  intro s1 r hx
  obtain ⟨-, -, -, h4⟩ := exit_eq hx
  rw [h4, List.map_append, List.count_append, ← hk]
  unfold kept
  omega

/-! ## The frames of a report -/

theorem mkFrames_eq {ps : List Pass} {i : Nat} {fs : List Frame} (h : mkFrames ps i = .ok fs) :
    fs.map Frame.pc = ps.map Pass.pc ∧ fs.map Frame.argc = ps.map Pass.argc ∧
      ∀ k (h1 : k < ps.length) (h2 : k < fs.length),
        fs[k].args.length = ps[k].argc ∧
          ∀ v ∈ fs[k].args, ps[k].cur[i + k]? = some v := by
  induction ps generalizing i fs with
  | nil => rw [mkFrames] at h; injection h with h; subst h; simp
  | cons p ps ih =>
    rw [mkFrames] at h
    split at h
    · cases h
    · rename_i a ha
      split at h
      · cases h
      · rename_i fs' hf
        injection h with h; subst h
        obtain ⟨e1, e2, e3⟩ := ih hf
        refine ⟨by simp [e1], by simp [e2], ?_⟩
        intro k h1 h2
        cases k with
        | zero =>
          simp only [List.getElem_cons_zero, Nat.add_zero]
          unfold frameArgs at ha
          split at ha
          · rename_i hz
            injection ha with ha; subst ha
            exact ⟨by simp [hz], by simp⟩
          · split at ha
            · rename_i v hv
              injection ha with ha; subst ha
              refine ⟨by simp, ?_⟩
              intro x hx
              rw [List.eq_of_mem_replicate hx]; exact hv
            · cases ha
        | succ k =>
          simp only [List.getElem_cons_succ]
          have := e3 k (by simpa using h1) (by simpa using h2)
          rw [show i + (k + 1) = i + 1 + k by omega]
          exact this

/-- C70, as far as it is true.  The iterator over the live targets gives a frame for every
call that has not returned, innermost first, with its function and its number of
arguments.  The argument values of frame `k` are all the `k`th argument, so they are
right for an innermost target with one argument.  Missing: the values of all other
frames, see `C70_frames_wrong`. -/
theorem C70_frames_partial (w : Nat) (evs : List Ev) (s s1 : St) (obs : List Seen) (it : Iter)
    (hok : okRun w {} evs) (h : run {} evs = .ok (s, obs)) (hm : mkIter s = .ok (it, s1)) :
    it.frames.map Frame.pc = (Spec.run {} evs).1.calls.map Call.pc ∧
      it.frames.map (fun f => f.args.length) = (Spec.run {} evs).1.calls.map
        (fun f => f.args.length) ∧
      (∀ k (h1 : k < s.live.length) (h2 : k < it.frames.length),
        ∀ v ∈ it.frames[k].args, s.live[k].cur[k]? = some v) ∧
      ∀ p ps, s.live = p :: ps → p.argc = 1 → it.frames.head?.map Frame.args = some p.cur := by
  have hi := run_inv inv_init h
  have hc := (C70_iterations w evs s obs hok h).2
  unfold mkIter at hm
  split at hm
  · cases hm
  · rename_i fs hf
    injection hm with hm; injection hm with h3 h4; subst h3
    obtain ⟨e1, e2, e3⟩ := mkFrames_eq hf
    have hlen : fs.length = s.live.length := by
      have := congrArg List.length e1
      simpa using this
    refine ⟨?_, ?_, ?_, ?_⟩
    · rw [← hc, List.map_map]
      exact e1
    · rw [← hc, List.map_map]
      apply List.ext_getElem
      · simp [hlen]
      · intro k h1 h2
        simp only [List.getElem_map, Function.comp]
        simp only [List.length_map] at h1 h2
        rw [(e3 k h2 h1).1]
        exact (hi.lens _ (List.getElem_mem h2)).1.symm
    · intro k h1 h2 v hv
      have := (e3 k h1 h2).2 v hv
      rw [Nat.zero_add] at this
      exact this
    · intro p ps hl hp
      cases fs with
      | nil => rw [hl] at hlen; simp at hlen
      | cons f fs =>
        have h0 := e3 0 (by rw [hl]; simp) (by simp)
        simp only [hl, List.getElem_cons_zero, Nat.add_zero] at h0
        have hl2 := (hi.lens p (by rw [hl]; exact List.mem_cons_self)).2
        rw [hp] at hl2 h0
        obtain ⟨a, ha⟩ := List.length_eq_one_iff.1 h0.1
        obtain ⟨b, hb⟩ := List.length_eq_one_iff.1 hl2
        have := h0.2 a (by rw [ha]; exact List.mem_cons_self)
        rw [hb] at this
        simp only [List.getElem?_cons_zero, Option.some.injEq] at this
        simp [ha, hb, this]

/-! ## After a fault that the application handles -/

theorem fault_iter {s s1 : St} {p : Pass} {ps : List Pass} {code : Nat} {a : Option Nat}
    (hl : s.live = p :: ps) (h : faultEvent s code a = .ok s1) :
    ∃ it, s1.iter = some it ∧ mkFrames s.live 0 = .ok it.frames := by
  unfold faultEvent at h
  rw [hl] at h
  dsimp only at h
  split at h
  · cases h
  · rename_i it s2 h2
    injection h with h; subst h
    obtain ⟨-, -, -, -, -, e1, -⟩ := putFault_eq (dropLast { s2 with iter := some it }) code a
    obtain ⟨-, -, -, -, -, e2, -⟩ := dropLast_eq { s2 with iter := some it }
    refine ⟨it, by rw [e1, e2], ?_⟩
    unfold mkIter at h2
    split at h2
    · cases h2
    · rename_i fs hf
      injection h2 with h2; injection h2 with h3 h4; subst h3
      exact hf

/-- C70, negated.  A critical fault in a target that the application handles is followed, two
iterations later, by a second free of the same memory: the iterator made for the fault
is stopped at the start of every iteration after it.  This is so from every state. -/
theorem C70_fault_twice (s : St) (hl : s.live ≠ []) (code : Nat) (a : Option Nat)
    (j1 j2 : Entry) (c1 c2 : Client) :
    ∀ r, run s [.fault code a, .rep j1 c1, .rep j2 c2] ≠ .ok r := by
  intro r h
  obtain ⟨p, ps, hl⟩ := List.exists_cons_of_ne_nil hl
  rw [run] at h
  split at h
  · cases h
  · rename_i s1 o1 h1
    split at h
    · cases h
    · rename_i s4 o4 h4
      rw [step] at h1
      split at h1
      · cases h1
      · rename_i s1' h1'
        injection h1 with h1; injection h1 with e1 e2; subst e1
        obtain ⟨it, hit, -⟩ := fault_iter hl h1'
        rw [run] at h4
        split at h4
        · cases h4
        · rename_i s2 o2 h2
          split at h4
          · cases h4
          · rename_i s3 o3 h3
            rw [step] at h2
            split at h2
            · cases h2
            · rename_i s2' o2' h2'
              injection h2 with h2; injection h2 with e3 e4; subst e3
              unfold again at h2'
              split at h2'
              · cases h2'
              · obtain ⟨-, -, -, f1, f2⟩ := pre_faults h2'
                have hin := (f2 it hit).2
                rw [hit] at f1
                rw [run] at h3
                split at h3
                · cases h3
                · rename_i s5 o5 h5
                  rw [step] at h5
                  split at h5
                  · cases h5
                  · rename_i s6 o6 h6
                    unfold again at h6
                    split at h6
                    · cases h6
                    · obtain ⟨-, -, -, -, g2⟩ := pre_faults h6
                      exact (g2 it f1).1 hin

/-- C70, negated.  The same at the exit of the thread, after one iteration. -/
theorem C70_fault_exit (s s1 : St) (o : List Seen) (hl : s.live ≠ []) (code : Nat)
    (a : Option Nat) (j : Entry) (c : Client)
    (h : run s [.fault code a, .rep j c] = .ok (s1, o)) :
    threadExit s1 = .error .doubleFree := by
  obtain ⟨p, ps, hl⟩ := List.exists_cons_of_ne_nil hl
  rw [run] at h
  split at h
  · cases h
  · rename_i s2 o1 h1
    split at h
    · cases h
    · rename_i s4 o4 h4
      injection h with h; injection h with x1 x2; subst x1
      rw [step] at h1
      split at h1
      · cases h1
      · rename_i s1' h1'
        injection h1 with h1; injection h1 with e1 e2; subst e1
        obtain ⟨it, hit, -⟩ := fault_iter hl h1'
        rw [run] at h4
        split at h4
        · cases h4
        · rename_i s3 o2 h2
          rw [run] at h4
          dsimp only at h4
          injection h4 with h4; injection h4 with y1 y2; subst y1
          rw [step] at h2
          split at h2
          · cases h2
          · rename_i s2' o2' h2'
            injection h2 with h2; injection h2 with e3 e4; subst e3
            unfold again at h2'
            split at h2'
            · cases h2'
            · have hne := h2'
              obtain ⟨-, -, -, f1, f2⟩ := pre_faults h2'
              have hin := (f2 it hit).2
              rw [hit] at f1
              unfold threadExit
              simp only
              cases hlv : s2'.live with
              | nil =>
                simp only [f1]
                unfold stopIter
                rw [if_pos hin]
              | cons q qs =>
                simp only [f1]
                unfold stopIter
                rw [if_pos hin]

/-! ## Concrete runs -/

/-- A client that changes nothing. -/
def idle : Client := fun _ => []

/-- An entry with a list of arguments. -/
def ent (pc xsp ra : Nat) (args : List Nat) : Entry := ⟨pc, 7, xsp, ra, fun i => args.getD i 99⟩

/-- Whatever the last iteration left. -/
def junk : Entry := ⟨0, 7, 0, 55, fun i => 1000 + i⟩

/-- What a run shows, or why it fails. -/
def shows (evs : List Ev) : Except Err (List Seen) :=
  match run {} evs with
  | .ok (_, o) => .ok o
  | .error e => .error e

/-- A run that satisfies the hypotheses of `C70_iterations`: `f(1, 2)` is called and
repeated with another argument while inside it `g(5)` is called. -/
def sample : List Ev :=
  [.fuzz 10 2, .fuzz 20 1, .call (ent 10 800 100 [1, 2]) idle,
   .call (ent 20 700 200 [5]) (fun _ => [(0, 6)]), .user 20 (some 77), .bb, .ret,
   .rep junk (fun _ => [(1, 3)]), .call (ent 20 700 200 [5]) idle, .ret, .ret]

example : okRun 7 {} sample ∧ plainRun {} sample := by
  simp [sample, okRun, okEv, plainRun, plainEv, Spec.step, Spec.argc, ent, junk]

example : shows sample = .ok
    [⟨10, [1, 2], [1, 2], [1, 2], [1, 2], 800, 800, 100⟩,
     ⟨20, [5], [5], [5], [6], 700, 700, 200⟩,
     ⟨10, [1, 2], [1, 2], [1, 2], [1, 3], 800, 800, 100⟩,
     ⟨20, [5], [5], [5], [5], 700, 700, 200⟩] := by rfl

example : attached {} sample = [77] ∧ blocks 20 {} sample 0 = 1 := by
  constructor
  · rfl
  · decide +kernel

example : tidy {} sample := by
  refine ⟨trivial, trivial, trivial, trivial, ?_, trivial, trivial, trivial, trivial, trivial,
    trivial, trivial⟩
  intro q h
  have h' : some (⟨1, 1, 20, 1, 7, 700, 200, [5], [6], none⟩ : Pass) = some q := h
  injection h' with h'
  subst h'
  rfl

/-- C70, negated.  The frames of a report do not hold the arguments: `f(1, 2)` is reported as
`f(1, 1)`. -/
theorem C70_frames_wrong :
    (match run {} [.fuzz 10 2, .call (ent 10 800 100 [1, 2]) idle, .fault 11 none] with
      | .ok (s, _) => s.iter.map Iter.frames
      | .error _ => none) = some [⟨10, 2, [1, 1]⟩] := by rfl

/-- C70, negated.  With `f(1)` calling `g(5)`, the report of a fault in `g` reads past the
arguments of `f`. -/
theorem C70_frames_bounds :
    shows [.fuzz 10 1, .fuzz 20 1, .call (ent 10 800 100 [1]) idle,
      .call (ent 20 700 200 [5]) idle, .fault 11 none] = .error .outOfBounds := by rfl

/-- C70, negated.  The library says that the frames are those of the first fault of a chain.
They are those of the last: `g`, called by `f`, faults and handles it, and then `f`
faults; the report has both faults, and the frame of `f` only. -/
theorem C70_last_frames :
    (match run {} [.fuzz 10 2, .fuzz 20 0, .call (ent 10 800 100 [1, 1]) idle,
        .call (ent 20 700 200 []) idle, .fault 12 none, .ret, .fault 13 none] with
      | .ok (s, _) =>
        match threadExit s with
        | .ok (_, r) => r.map (fun r => (r.faults.map Fault.code, r.frames))
        | .error _ => none
      | .error _ => none) = some ([12, 13], [⟨10, 2, [1, 1]⟩]) := by rfl

/-- C70, negated.  A fault to which the client attaches nothing carries the data of an earlier
fault that was deleted; when it is deleted in its turn, the client sees that data twice. -/
theorem C70_fault_data :
    (match run {} [.fault 11 (some 77), .fault 12 none, .fault 13 none] with
      | .ok (s, _) => some (s.fdeleted, s.faults)
      | .error _ => none) =
    some ([⟨11, some 77⟩, ⟨12, some 77⟩], [⟨13, some 77⟩]) := by rfl

/-- C70, negated.  A target can be unregistered while the cache of the current pass still
points to it: the end of the pass reads it after it was freed. -/
theorem C70_unfuzz_cached :
    shows [.fuzz 10 1, .fuzz 20 1, .call (ent 10 800 100 [1]) idle,
      .call (ent 20 700 200 [5]) idle, .ret, .unfuzz 20, .ret] = .error .useAfterFree := by rfl

/-- C70, negated for a target that calls itself: `f(1)` calls `f(2)`, which runs as `f(1)`, and
whose return address is not restored where it is. -/
theorem C70_recursion :
    (match shows [.fuzz 10 1, .call (ent 10 800 100 [1]) idle, .call (ent 10 700 150 [2]) idle] with
      | .ok o => o.map (fun o => (o.ran, o.xsp, o.retLoc, o.retVal))
      | .error _ => []) = [([1], 800, 800, 100), ([1], 700, 800, 100)] := by rfl

/-- C70, negated when the wrap context moves: the client sets the argument to 9 in both
iterations, and the second runs with the original. -/
theorem C70_wrap_context :
    (match shows [.fuzz 10 1, .call (ent 10 800 100 [1]) (fun _ => [(0, 9)]),
        .rep { junk with wrapcxt := 8 } (fun _ => [(0, 9)])] with
      | .ok o => o.map (fun o => (o.args, o.ran))
      | .error _ => []) = [([1], [9]), ([1], [1])] := by rfl

/-- C70, negated.  In the callback before an iteration `drfuzz_get_arg` gives for the current
value that of the iteration before, not what is in place. -/
theorem C70_current_arg :
    (match shows [.fuzz 10 1, .call (ent 10 800 100 [1]) (fun _ => [(0, 9)]), .rep junk idle] with
      | .ok o => o.map (fun o => (o.args, o.cur))
      | .error _ => []) = [([1], [1]), ([1], [9])] := by rfl

/-- C70, negated.  The values of a frame are freed with the size of one of them. -/
theorem C70_free_size :
    (match run {} [.fuzz 10 2, .call (ent 10 800 100 [1, 2]) idle, .fault 11 none,
        .rep junk idle] with
      | .ok (s, _) => s.iterFrees
      | .error _ => []) = [(16, 8)] := by rfl

/-- The hypotheses of `C70_cache` can be met: `f` with `g` inside, repeated. -/
example :
    (match run {} (sample.take 6) with
      | .ok (s, _) =>
        match run s (List.replicate 1 .ret ++ [.rep junk idle] ++
            [(ent 20 700 200 [5], idle)].map (fun x => Ev.call x.1 x.2)) with
        | .ok (s1, _) => some (s.live.map Pass.ident, s1.live.map Pass.ident)
        | .error _ => none
      | .error _ => none) =
    some ([(1, 20, some 77), (0, 10, none)], [(1, 20, some 77), (0, 10, none)]) := by rfl

/-- Faults of one iteration: the first and the last of three are kept. -/
example :
    (match run {} [.fuzz 10 1, .call (ent 10 800 100 [1]) idle, .fault 11 none, .fault 12 none,
        .fault 13 none] with
      | .ok (s, _) => some (s.faults.map Fault.code, s.observed, s.fdeleted.map Fault.code)
      | .error _ => none) = some ([11, 13], 3, [12]) := by rfl

end Verif.DrFuzz
