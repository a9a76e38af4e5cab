import Verif.DrFuzz

/-!
# Dr. Fuzz: every iteration runs on what the application passed (C70)

The specification is a machine that knows only a call stack: for every call of a
target a frame with what the application passed.  `C70_iterations` says that the
iterations of the model are those of this machine.
-/

namespace Verif.DrFuzz

/-- A call of a target that has not returned: what the application passed. -/
structure Call where
  pc : Nat
  xsp : Nat
  ra : Nat
  args : List Nat
  deriving DecidableEq, Repr

/-- The specification's state: the registered targets with their number of
arguments, and the calls that have not returned, innermost first. -/
structure Spec where
  reg : List (Nat × Nat) := []
  calls : List Call := []

/-- What a client and an application may rely on in one iteration. -/
structure Iteration where
  pc : Nat
  /-- the arguments the client finds -/
  args : List Nat
  /-- the arguments the target runs with -/
  ran : List Nat
  xsp : Nat
  retLoc : Nat
  ra : Nat
  deriving DecidableEq, Repr

/-- The arguments after the client's changes. -/
def changed (ops : List (Nat × Nat)) (args : List Nat) : List Nat :=
  ops.foldl (fun l o => l.set o.1 o.2) args

/-- The iteration of a call. -/
def iteration (f : Call) (c : Client) : Iteration :=
  ⟨f.pc, f.args, changed (c f.args) f.args, f.xsp, f.xsp, f.ra⟩

/-- The number of arguments a target was registered with. -/
def Spec.argc (σ : Spec) (pc : Nat) : Option Nat :=
  (σ.reg.find? (fun t => t.1 == pc)).map Prod.snd

/-- The specification's step. -/
def Spec.step (σ : Spec) : Ev → Spec × List Iteration
  | .fuzz pc argc =>
    if pc = 0 ∨ (σ.argc pc).isSome then (σ, [])
    else ({ σ with reg := σ.reg ++ [(pc, argc)] }, [])
  | .unfuzz pc =>
    if (σ.argc pc).isSome ∧ ∀ f ∈ σ.calls, f.pc ≠ pc then
      ({ σ with reg := σ.reg.filter (fun t => t.1 != pc) }, [])
    else (σ, [])
  | .call e c =>
    match σ.argc e.pc with
    | none => (σ, [])
    | some n =>
      let f : Call := ⟨e.pc, e.xsp, e.ra, readArgs e.args n⟩
      ({ σ with calls := f :: σ.calls }, [iteration f c])
  | .rep _ c =>
    match σ.calls with
    | [] => (σ, [])
    | f :: _ => (σ, [iteration f c])
  | .ret => ({ σ with calls := σ.calls.tail }, [])
  | .bb => (σ, [])
  | .fault _ _ => (σ, [])
  | .user _ _ => (σ, [])

/-- The specification's run. -/
def Spec.run : Spec → List Ev → Spec × List Iteration
  | σ, [] => (σ, [])
  | σ, e :: es =>
    let (σ1, o1) := σ.step e
    let (σ2, o2) := Spec.run σ1 es
    (σ2, o1 ++ o2)

/-- The target is not called directly from itself (the library says this is not
supported), and the wrap context is at the same place on every entry. -/
def okEv (w : Nat) (σ : Spec) : Ev → Prop
  | .call e _ => e.wrapcxt = w ∧ ∀ f ∈ σ.calls.head?, f.pc ≠ e.pc
  | .rep j _ => j.wrapcxt = w
  | _ => True

/-- Every event of the run is such an event. -/
def okRun (w : Nat) : Spec → List Ev → Prop
  | _, [] => True
  | σ, e :: es => okEv w σ e ∧ okRun w (σ.step e).1 es

/-- What the specification says of an iteration that was observed. -/
def Seen.iter (o : Seen) : Iteration := ⟨o.pc, o.args, o.ran, o.xsp, o.retLoc, o.retVal⟩

/-- The call a pass target stands for. -/
def Pass.call (p : Pass) : Call := ⟨p.pc, p.xsp, p.retaddr, p.orig⟩

/-! ## Lemmas -/

theorem readArgs_length (a : Args) (n : Nat) : (readArgs a n).length = n := by
  simp [readArgs]

theorem readArgs_setArg (a : Args) (n i v : Nat) :
    readArgs (setArg a i v) n = (readArgs a n).set i v := by
  apply List.ext_getElem
  · simp [readArgs]
  · intro k h1 h2
    rw [List.getElem_set]
    simp only [readArgs, List.getElem_map, List.getElem_range, setArg]
    by_cases h : k = i
    · simp [h]
    · rw [if_neg h, if_neg (fun x => h x.symm)]

theorem readArgs_ops (ops : List (Nat × Nat)) (a : Args) (n : Nat) :
    readArgs (ops.foldl (fun a o => setArg a o.1 o.2) a) n = changed ops (readArgs a n) := by
  induction ops generalizing a with
  | nil => rfl
  | cons o os ih =>
    simp only [List.foldl_cons, changed]
    rw [ih, readArgs_setArg]
    rfl

theorem restore_fold (orig : List Nat) (l : List Nat) (a : Args) (k : Nat) :
    (l.foldl (fun a i => setArg a i (orig.getD i 0)) a) k =
      if k ∈ l then orig.getD k 0 else a k := by
  induction l generalizing a with
  | nil => simp
  | cons i l ih =>
    simp only [List.foldl_cons]
    rw [ih]
    by_cases h : k ∈ l
    · rw [if_pos h, if_pos (List.mem_cons_of_mem _ h)]
    · rw [if_neg h]
      by_cases h2 : k = i
      · subst h2; simp [setArg]
      · simp [setArg, h2, h]

theorem readArgs_restore (a : Args) (orig : List Nat) :
    readArgs (restoreArgs a orig orig.length) orig.length = orig := by
  apply List.ext_getElem
  · simp [readArgs]
  · intro k h1 h2
    simp only [readArgs, List.getElem_map, List.getElem_range, restoreArgs]
    rw [restore_fold, if_pos (List.mem_range.2 h2)]
    simp [h2]

/-- The model's state stands for the specification's. -/
structure Rel (w : Nat) (s : St) (σ : Spec) : Prop where
  reg : σ.reg = s.targets.map (fun t => (t.pc, t.argc))
  calls : σ.calls = s.live.map Pass.call
  wrapL : ∀ p ∈ s.live, p.wrapcxt = w
  wrapC : ∀ p ∈ s.cached, p.wrapcxt = w
  args : ∀ p ∈ s.live, ∃ t, s.find p.pc = some t ∧ t.argc = p.orig.length

theorem find_reg (ts : List Tgt) (pc : Nat) :
    ((ts.map (fun t => (t.pc, t.argc))).find? (fun t => t.1 == pc)).map Prod.snd =
      (ts.find? (fun t => t.pc == pc)).map Tgt.argc := by
  rw [List.find?_map]
  cases h : ts.find? (fun t => t.pc == pc) <;> simp_all [Function.comp_def]

theorem Rel.argc {w : Nat} {s : St} {σ : Spec} (h : Rel w s σ) (pc : Nat) :
    σ.argc pc = (s.find pc).map Tgt.argc := by
  rw [Spec.argc, h.reg, find_reg]; rfl

theorem find_pc {s : St} {pc : Nat} {t : Tgt} (h : s.find pc = some t) : t.pc = pc := by
  have := List.find?_some h
  simpa using this

theorem freePass_eq {s s1 : St} {p : Pass} (h : freePass s p = .ok s1) :
    s1.targets = s.targets ∧ s1.live = s.live ∧ s1.cached = s.cached ∧ s1.iter = s.iter ∧
      s1.freedI = s.freedI ∧ s1.nextI = s.nextI ∧ s1.faults = s.faults ∧
      s1.nextP = s.nextP ∧ s1.freedP = s.freedP ++ [p.pid] ∧
      s1.deleted = s.deleted ++ p.user.toList ∧ s1.fdeleted = s.fdeleted ∧
      s1.observed = s.observed := by
  unfold freePass at h
  cases hu : p.user with
  | none =>
    rw [hu] at h
    dsimp only at h
    split at h
    · injection h with h; subst h; simp
    · cases h
  | some u =>
    rw [hu] at h
    dsimp only at h
    split at h
    · injection h with h; subst h; simp
    · cases h

theorem freePasses_eq {s s1 : St} {ps : List Pass} (h : freePasses s ps = .ok s1) :
    s1.targets = s.targets ∧ s1.live = s.live ∧ s1.cached = s.cached ∧ s1.iter = s.iter ∧
      s1.freedI = s.freedI ∧ s1.nextI = s.nextI ∧ s1.faults = s.faults ∧
      s1.nextP = s.nextP ∧ s1.freedP = s.freedP ++ ps.map Pass.pid ∧
      s1.deleted = s.deleted ++ ps.filterMap Pass.user ∧ s1.fdeleted = s.fdeleted ∧
      s1.observed = s.observed := by
  induction ps generalizing s with
  | nil => rw [freePasses] at h; injection h with h; subst h; simp
  | cons p ps ih =>
    rw [freePasses] at h
    split at h
    · rename_i s2 h2
      obtain ⟨a1, a2, a3, a4, a5, a6, a7, a8, a9, a10, a11, a12⟩ := freePass_eq h2
      obtain ⟨b1, b2, b3, b4, b5, b6, b7, b8, b9, b10, b11, b12⟩ := ih h
      refine ⟨b1.trans a1, b2.trans a2, b3.trans a3, b4.trans a4, b5.trans a5, b6.trans a6,
        b7.trans a7, b8.trans a8, ?_, ?_, b11.trans a11, b12.trans a12⟩
      · rw [b9, a9]; simp
      · rw [b10, a10, List.filterMap_cons]
        cases p.user <;> simp
    · cases h

theorem clearCached_eq {s s1 : St} (h : clearCached s = .ok s1) :
    s1.targets = s.targets ∧ s1.live = s.live ∧ s1.cached = [] ∧ s1.iter = s.iter ∧
      s1.freedI = s.freedI ∧ s1.nextI = s.nextI ∧ s1.faults = s.faults ∧
      s1.nextP = s.nextP ∧ s1.freedP = s.freedP ++ s.cached.map Pass.pid ∧
      s1.deleted = s.deleted ++ s.cached.filterMap Pass.user ∧ s1.fdeleted = s.fdeleted ∧
      s1.observed = s.observed := by
  unfold clearCached at h
  split at h
  · rename_i s2 h2
    obtain ⟨a1, a2, a3, a4, a5, a6, a7, a8, a9, a10, a11, a12⟩ := freePasses_eq h2
    injection h with h; subst h
    exact ⟨a1, a2, rfl, a4, a5, a6, a7, a8, a9, a10, a11, a12⟩
  · cases h

/-- What `activate` does when it succeeds. -/
theorem activate_eq {s s1 : St} {pc : Nat} {r : Option Pass} (h : activate s pc = .ok (r, s1)) :
    s1.targets = s.targets ∧ s1.live = s.live ∧ s1.iter = s.iter ∧ s1.freedI = s.freedI ∧
      s1.nextI = s.nextI ∧ s1.faults = s.faults ∧ s1.nextP = s.nextP ∧
      s1.fdeleted = s.fdeleted ∧ s1.observed = s.observed ∧
      ((∃ p ps, s.cached = p :: ps ∧ r = some p ∧ p.pc = pc ∧ s.alloc p.tid = true ∧
          s1.cached = ps ∧ s1.freedP = s.freedP ∧ s1.deleted = s.deleted) ∨
       (r = none ∧ s1.cached = [] ∧ s1.freedP = s.freedP ++ s.cached.map Pass.pid ∧
          s1.deleted = s.deleted ++ s.cached.filterMap Pass.user)) := by
  unfold activate at h
  split at h
  · rename_i hc
    injection h with h
    injection h with h1 h2
    subst h1; subst h2
    simp [hc]
  · rename_i p ps hc
    split at h
    · rename_i ha
      split at h
      · rename_i hp
        injection h with h
        injection h with h1 h2
        subst h1; subst h2
        exact ⟨rfl, rfl, rfl, rfl, rfl, rfl, rfl, rfl, rfl,
          Or.inl ⟨p, ps, hc, rfl, hp, ha, rfl, rfl, rfl⟩⟩
      · split at h
        · rename_i s2 h2
          obtain ⟨a1, a2, a3, a4, a5, a6, a7, a8, a9, a10, a11, a12⟩ := clearCached_eq h2
          injection h with h
          injection h with h1 h3
          subst h1; subst h3
          exact ⟨a1, a2, a4, a5, a6, a7, a8, a11, a12, Or.inr ⟨rfl, a3, a9, a10⟩⟩
        · cases h
    · cases h

/-- What `pickPass` returns: the top of the live stack, or a pass target (from the cache
or new) that has just been filled in. -/
theorem pickPass_eq {s s1 : St} {t : Tgt} {e : Entry} {p : Pass} (hpc : t.pc = e.pc)
    (h : pickPass s t e = .ok (p, s1)) :
    s1.targets = s.targets ∧ s1.iter = s.iter ∧ s1.freedI = s.freedI ∧ s1.nextI = s.nextI ∧
      s1.faults = s.faults ∧ s1.fdeleted = s.fdeleted ∧ s1.observed = s.observed ∧
      ((s.live = p :: s1.live ∧ p.pc = e.pc ∧ s1.cached = s.cached ∧ s1.nextP = s.nextP ∧
          s1.freedP = s.freedP ∧ s1.deleted = s.deleted) ∨
       (s1.live = s.live ∧ (∀ q ∈ s.live.head?, q.pc ≠ e.pc) ∧ ∃ q, p = enterPass q t e ∧
          q.pc = e.pc ∧
          ((s.cached = q :: s1.cached ∧ s.alloc q.tid = true ∧ s1.nextP = s.nextP ∧
              s1.freedP = s.freedP ∧ s1.deleted = s.deleted) ∨
           (q = (newPass s t e.wrapcxt).1 ∧ s1.cached = [] ∧ s1.nextP = s.nextP + 1 ∧
              s1.freedP = s.freedP ++ s.cached.map Pass.pid ∧
              s1.deleted = s.deleted ++ s.cached.filterMap Pass.user)))) := by
  have fresh : ∀ (hh : (match activate s e.pc with
      | .error x => .error x
      | .ok (some p, s1) => .ok (enterPass p t e, s1)
      | .ok (none, s1) =>
        let (p, s2) := newPass s1 t e.wrapcxt
        .ok (enterPass p t e, s2) : Except Err (Pass × St)) = .ok (p, s1)),
      s1.targets = s.targets ∧ s1.iter = s.iter ∧ s1.freedI = s.freedI ∧ s1.nextI = s.nextI ∧
      s1.faults = s.faults ∧ s1.fdeleted = s.fdeleted ∧ s1.observed = s.observed ∧
      s1.live = s.live ∧ ∃ q, p = enterPass q t e ∧ q.pc = e.pc ∧
          ((s.cached = q :: s1.cached ∧ s.alloc q.tid = true ∧ s1.nextP = s.nextP ∧
              s1.freedP = s.freedP ∧ s1.deleted = s.deleted) ∨
           (q = (newPass s t e.wrapcxt).1 ∧ s1.cached = [] ∧ s1.nextP = s.nextP + 1 ∧
              s1.freedP = s.freedP ++ s.cached.map Pass.pid ∧
              s1.deleted = s.deleted ++ s.cached.filterMap Pass.user)) := by
    intro hh
    split at hh
    · cases hh
    · rename_i q s2 ha
      obtain ⟨a1, a2, a3, a4, a5, a6, a7, a8, a9, a10⟩ := activate_eq ha
      injection hh with hh
      injection hh with h1 h2
      subst h1; subst h2
      rcases a10 with ⟨p', ps, b1, b2, b3, b4, b5, b6, b7⟩ | ⟨b1, _⟩
      · injection b2 with b2
        subst b2
        exact ⟨a1, a3, a4, a5, a6, a8, a9, a2, q, rfl, b3,
          Or.inl ⟨by rw [b5]; exact b1, b4, a7, b6, b7⟩⟩
      · cases b1
    · rename_i s2 ha
      obtain ⟨a1, a2, a3, a4, a5, a6, a7, a8, a9, a10⟩ := activate_eq ha
      simp only [newPass] at hh
      injection hh with hh
      injection hh with h1 h2
      subst h1; subst h2
      rcases a10 with ⟨p', ps, b1, b2, b3, b4, b5, b6⟩ | ⟨b1, b2, b3, b4⟩
      · cases b2
      · refine ⟨a1, a3, a4, a5, a6, a8, a9, a2, _, rfl, hpc, Or.inr ⟨?_, b2, ?_, b3, b4⟩⟩
        · simp only [newPass, a7]
        · simp only [a7]
  unfold pickPass at h
  simp only at h
  split at h
  · rename_i q qs hl
    split at h
    · rename_i hq
      injection h with h
      injection h with h1 h2
      subst h1; subst h2
      exact ⟨rfl, rfl, rfl, rfl, rfl, rfl, rfl, Or.inl ⟨hl, hq, rfl, rfl, rfl, rfl⟩⟩
    · rename_i hq
      obtain ⟨a1, a2, a3, a4, a5, a6, a7, a8, a9⟩ := fresh h
      refine ⟨a1, a2, a3, a4, a5, a6, a7, Or.inr ⟨a8, ?_, a9⟩⟩
      rw [hl]
      intro q' hq'
      simp only [List.head?_cons, Option.mem_def, Option.some.injEq] at hq'
      subst hq'; exact hq
  · rename_i hl
    obtain ⟨a1, a2, a3, a4, a5, a6, a7, a8, a9⟩ := fresh h
    refine ⟨a1, a2, a3, a4, a5, a6, a7, Or.inr ⟨a8, ?_, a9⟩⟩
    rw [hl]; simp

/-- What the handler has done before it picks the pass target. -/
def beforePick (s : St) : Except Err St :=
  match (clearFaults s).iter with
  | some it => stopIter (clearFaults s) it
  | none => .ok (clearFaults s)

theorem beforePick_eq {s s1 : St} (h : beforePick s = .ok s1) :
    s1.targets = s.targets ∧ s1.live = s.live ∧ s1.cached = s.cached ∧ s1.iter = s.iter ∧
      s1.nextI = s.nextI ∧ s1.nextP = s.nextP ∧ s1.freedP = s.freedP ∧ s1.deleted = s.deleted ∧
      s1.faults = [] ∧ s1.observed = 0 ∧ s1.fdeleted = s.fdeleted ++ s.faults ∧
      s1.freedI = s.freedI ++ (s.iter.map Iter.id).toList ∧
      (∀ it ∈ s.iter, it.id ∉ s.freedI) := by
  unfold beforePick at h
  split at h
  · rename_i it hi
    have hi' : s.iter = some it := hi
    unfold stopIter at h
    split at h
    · cases h
    · rename_i hn
      injection h with h; subst h
      simp only [clearFaults, hi', true_and] at hn ⊢
      refine ⟨by simp, ?_⟩
      intro it2 h2
      simp only [Option.mem_def, Option.some.injEq] at h2
      subst h2
      exact hn
  · rename_i hi
    have hi' : s.iter = none := hi
    injection h with h; subst h
    simp [clearFaults, hi']

/-- The handler, in its parts. -/
theorem pre_eq {s s1 : St} {e : Entry} {c : Client} {o : Seen} (h : pre s e c = .ok (s1, o)) :
    ∃ t s2 s3 p, s.find e.pc = some t ∧ beforePick s = .ok s2 ∧
      pickPass s2 t e = .ok (p, s3) ∧
      s1 = { s3 with live := (runPass p t e c).1 :: s3.live } ∧ o = (runPass p t e c).2 := by
  unfold pre at h
  split at h
  · cases h
  · rename_i t ht
    simp only at h
    split at h
    · cases h
    · rename_i s2 h2
      split at h
      · cases h
      · rename_i p s3 h3
        injection h with h
        injection h with h1 h4
        exact ⟨t, s2, s3, p, ht, h2, h3, h1.symm, h4.symm⟩

/-- An iteration of the model on a pass target that holds what the application passed. -/
theorem runPass_seen {p : Pass} {t : Tgt} {e : Entry} {c : Client} (hw : p.wrapcxt = e.wrapcxt)
    (hx : p.xsp = e.xsp) (hp : p.pc = e.pc) (hn : t.argc = p.orig.length) :
    (runPass p t e c).2.iter = iteration p.call c := by
  simp only [runPass, Seen.iter, iteration, Pass.call, applyClient, hw, if_true, hn,
    readArgs_ops, readArgs_restore, hp, hx]

theorem runPass_call (p : Pass) (t : Tgt) (e : Entry) (c : Client) :
    (runPass p t e c).1.call = p.call := rfl

theorem find_congr {s s1 : St} (h : s1.targets = s.targets) (pc : Nat) :
    s1.find pc = s.find pc := by
  unfold St.find; rw [h]

/-- A handler call on a target that is not the one on top: a new invocation. -/
theorem pre_call {w : Nat} {s s1 : St} {σ : Spec} {e : Entry} {c : Client} {o : Seen}
    (hr : Rel w s σ) (hw : e.wrapcxt = w) (hn : ∀ f ∈ σ.calls.head?, f.pc ≠ e.pc)
    (h : pre s e c = .ok (s1, o)) :
    Rel w s1 (σ.step (.call e c)).1 ∧ [o.iter] = (σ.step (.call e c)).2 := by
  obtain ⟨t, s2, s3, p, ht, hb, hp, h1, ho⟩ := pre_eq h
  obtain ⟨a1, a2, a3, -, -, -, -, -, -, -, -, -, -⟩ := beforePick_eq hb
  have htp := find_pc ht
  obtain ⟨b1, -, -, -, -, -, -, b8⟩ := pickPass_eq htp hp
  have ht1 : s1.targets = s.targets := by rw [h1]; exact b1.trans a1
  have hσ : σ.argc e.pc = some t.argc := by rw [hr.argc, ht]; rfl
  rcases b8 with ⟨c1, c2, -⟩ | ⟨c1, c2, q, c3, c4, c5⟩
  · exfalso
    rw [a2] at c1
    apply hn p.call
    · rw [hr.calls, c1]; rfl
    · exact c2
  · have hqw : q.wrapcxt = w := by
      rcases c5 with ⟨d1, -⟩ | ⟨d1, -⟩
      · apply hr.wrapC; rw [← a3, d1]; exact List.mem_cons_self
      · rw [d1]; exact hw
    have hpw : p.wrapcxt = w := by rw [c3]; exact hqw
    have hpp : p.pc = e.pc := by rw [c3]; exact c4
    have hpo : p.orig = readArgs e.args t.argc := by rw [c3]; rfl
    have hpx : p.xsp = e.xsp := by rw [c3]; rfl
    have hpr : p.retaddr = e.ra := by rw [c3]; rfl
    have hlen : t.argc = p.orig.length := by rw [hpo, readArgs_length]
    have hcall : p.call = ⟨e.pc, e.xsp, e.ra, readArgs e.args t.argc⟩ := by
      simp only [Pass.call, hpp, hpx, hpr, hpo]
    have hseen := runPass_seen (c := c) (hpw.trans hw.symm) hpx hpp hlen
    simp only [Spec.step, hσ]
    constructor
    · constructor
      · rw [h1]; show σ.reg = _; rw [hr.reg, b1, a1]
      · rw [h1]
        simp only [List.map_cons, runPass_call, hcall, c1, a2]
        rw [hr.calls]
      · rw [h1]
        intro q' hq'
        simp only [List.mem_cons] at hq'
        rcases hq' with rfl | hq'
        · exact hpw
        · rw [c1, a2] at hq'; exact hr.wrapL q' hq'
      · rw [h1]
        intro q' hq'
        simp only at hq'
        rcases c5 with ⟨d1, -⟩ | ⟨-, d1, -⟩
        · apply hr.wrapC; rw [← a3, d1]; exact List.mem_cons_of_mem _ hq'
        · rw [d1] at hq'; cases hq'
      · intro q' hq'
        rw [find_congr (s := s) ht1]
        rw [h1] at hq'
        simp only [List.mem_cons] at hq'
        rcases hq' with rfl | hq'
        · refine ⟨t, ?_, hlen⟩
          show s.find p.pc = some t
          rw [hpp]; exact ht
        · rw [c1, a2] at hq'; exact hr.args q' hq'
    · rw [ho, hseen, hcall]

/-- A handler call after a redirection: a repetition of the target on top. -/
theorem pre_rep {w : Nat} {s s1 : St} {σ : Spec} {j : Entry} {c : Client} {o : Seen}
    (hr : Rel w s σ) (hw : j.wrapcxt = w) (h : again s j c = .ok (s1, o)) :
    Rel w s1 (σ.step (.rep j c)).1 ∧ [o.iter] = (σ.step (.rep j c)).2 := by
  unfold again at h
  split at h
  · cases h
  · rename_i p0 ps hl
    obtain ⟨t, s2, s3, p, ht, hb, hp, h1, ho⟩ := pre_eq h
    obtain ⟨a1, a2, a3, -, -, -, -, -, -, -, -, -, -⟩ := beforePick_eq hb
    have htp := find_pc ht
    obtain ⟨b1, -, -, -, -, -, -, b8⟩ := pickPass_eq htp hp
    have ht1 : s1.targets = s.targets := by rw [h1]; exact b1.trans a1
    rcases b8 with ⟨c1, c2, c3, -⟩ | ⟨c1, c2, -⟩
    · rw [a2, hl] at c1
      injection c1 with c1 c4
      subst c1
      have hmem : p0 ∈ s.live := by rw [hl]; exact List.mem_cons_self
      obtain ⟨t2, ht2, hlen⟩ := hr.args p0 hmem
      have ht' : s.find p0.pc = some t := ht
      rw [ht'] at ht2
      injection ht2 with ht2
      subst ht2
      have hseen := runPass_seen (p := p0) (t := t) (e := { j with pc := p0.pc, xsp := p0.xsp })
        (c := c) ((hr.wrapL p0 hmem).trans hw.symm) rfl rfl hlen
      have hc : σ.calls = p0.call :: ps.map Pass.call := by rw [hr.calls, hl]; rfl
      simp only [Spec.step, hc]
      constructor
      · constructor
        · rw [h1]; show σ.reg = _; rw [hr.reg, b1, a1]
        · rw [h1, hc]
          simp only [List.map_cons, runPass_call, c4]
        · rw [h1]
          intro q' hq'
          simp only [List.mem_cons] at hq'
          rcases hq' with rfl | hq'
          · exact hr.wrapL p0 hmem
          · rw [← c4] at hq'; apply hr.wrapL q'; rw [hl]; exact List.mem_cons_of_mem _ hq'
        · rw [h1]
          intro q' hq'
          simp only at hq'
          rw [c3, a3] at hq'; exact hr.wrapC q' hq'
        · intro q' hq'
          rw [find_congr (s := s) ht1]
          rw [h1] at hq'
          simp only [List.mem_cons] at hq'
          rcases hq' with rfl | hq'
          · exact ⟨t, ht', hlen⟩
          · rw [← c4] at hq'; apply hr.args q'; rw [hl]; exact List.mem_cons_of_mem _ hq'
      · rw [ho, hseen]
    · exfalso
      apply c2 p0
      · rw [a2, hl]; rfl
      · rfl

/-! ## The other events -/

theorem putFault_eq (s : St) (code : Nat) (a : Option Nat) :
    (putFault s code a).targets = s.targets ∧ (putFault s code a).live = s.live ∧
      (putFault s code a).cached = s.cached ∧ (putFault s code a).nextP = s.nextP ∧
      (putFault s code a).freedP = s.freedP ∧ (putFault s code a).iter = s.iter ∧
      (putFault s code a).nextI = s.nextI ∧ (putFault s code a).freedI = s.freedI ∧
      (putFault s code a).fdeleted = s.fdeleted ∧ (putFault s code a).nextT = s.nextT := by
  unfold putFault
  simp only
  split <;> exact ⟨rfl, rfl, rfl, rfl, rfl, rfl, rfl, rfl, rfl, rfl⟩

theorem dropLast_eq (s : St) :
    (dropLast s).targets = s.targets ∧ (dropLast s).live = s.live ∧
      (dropLast s).cached = s.cached ∧ (dropLast s).nextP = s.nextP ∧
      (dropLast s).freedP = s.freedP ∧ (dropLast s).iter = s.iter ∧
      (dropLast s).nextI = s.nextI ∧ (dropLast s).freedI = s.freedI ∧
      (dropLast s).nextT = s.nextT := by
  unfold dropLast
  split <;> exact ⟨rfl, rfl, rfl, rfl, rfl, rfl, rfl, rfl, rfl⟩

theorem faultEvent_eq {s s1 : St} {code : Nat} {a : Option Nat}
    (h : faultEvent s code a = .ok s1) :
    s1.targets = s.targets ∧ s1.live = s.live ∧ s1.cached = s.cached ∧ s1.nextP = s.nextP ∧
      s1.freedP = s.freedP ∧ s1.freedI = s.freedI ∧ s1.nextT = s.nextT := by
  unfold faultEvent at h
  split at h
  · injection h with h; subst h
    obtain ⟨a1, a2, a3, a4, a5, -, -, a8, -, a10⟩ :=
      putFault_eq (dropLast (clearFaults s)) code a
    obtain ⟨b1, b2, b3, b4, b5, -, -, b8, b9⟩ := dropLast_eq (clearFaults s)
    exact ⟨a1.trans b1, a2.trans b2, a3.trans b3, a4.trans b4, a5.trans b5, a8.trans b8,
      a10.trans b9⟩
  · split at h
    · cases h
    · rename_i it s2 h2
      injection h with h; subst h
      unfold mkIter at h2
      split at h2
      · cases h2
      · injection h2 with h2
        injection h2 with h3 h4
        subst h4; subst h3
        obtain ⟨a1, a2, a3, a4, a5, -, -, a8, -, a10⟩ := putFault_eq (dropLast _) code a
        obtain ⟨b1, b2, b3, b4, b5, -, -, b8, b9⟩ := dropLast_eq _
        exact ⟨a1.trans b1, a2.trans b2, a3.trans b3, a4.trans b4, a5.trans b5, a8.trans b8,
          a10.trans b9⟩

/-- The relation only looks at the targets and at the two stacks. -/
theorem Rel.congr {w : Nat} {s s1 : St} {σ : Spec} (hr : Rel w s σ)
    (h1 : s1.targets = s.targets) (h2 : s1.live = s.live) (h3 : s1.cached = s.cached) :
    Rel w s1 σ := by
  constructor
  · rw [h1]; exact hr.reg
  · rw [h2]; exact hr.calls
  · rw [h2]; exact hr.wrapL
  · rw [h3]; exact hr.wrapC
  · rw [h2]; intro p hp; rw [find_congr h1]; exact hr.args p hp

theorem popLive_eq {s s1 : St} (h : popLive s = .ok s1) :
    ∃ p, s.live = p :: s1.live ∧ s1.targets = s.targets ∧ s1.nextP = s.nextP ∧
      s1.iter = s.iter ∧ s1.freedI = s.freedI ∧ s1.nextI = s.nextI ∧ s1.faults = s.faults ∧
      s1.fdeleted = s.fdeleted ∧ s1.observed = s.observed ∧
      ((s1.live ≠ [] ∧ s1.cached = p :: s.cached ∧ s1.freedP = s.freedP ∧
          s1.deleted = s.deleted) ∨
       (s1.live = [] ∧ s1.cached = [] ∧
          s1.freedP = s.freedP ++ (p :: s.cached).map Pass.pid ∧
          s1.deleted = s.deleted ++ (p :: s.cached).filterMap Pass.user)) := by
  unfold popLive at h
  split at h
  · cases h
  · rename_i p ps hl
    simp only at h
    split at h
    · rename_i hps
      obtain ⟨a1, a2, a3, a4, a5, a6, a7, a8, a9, a10, a11, a12⟩ := clearCached_eq h
      refine ⟨p, ?_, a1, a8, a4, a5, a6, a7, a11, a12, Or.inr ⟨?_, a3, a9, a10⟩⟩
      · rw [a2]; exact hl
      · rw [a2]; exact hps
    · rename_i hps
      injection h with h; subst h
      exact ⟨p, hl, rfl, rfl, rfl, rfl, rfl, rfl, rfl, rfl, Or.inl ⟨hps, rfl, rfl, rfl⟩⟩

theorem find_filter {ts : List Tgt} {pc q : Nat} (h : q ≠ pc) :
    (ts.filter (fun t => t.pc != pc)).find? (fun t => t.pc == q) =
      ts.find? (fun t => t.pc == q) := by
  induction ts with
  | nil => rfl
  | cons t ts ih =>
    by_cases h1 : t.pc = pc
    · have h2 : ¬ t.pc = q := fun x => h (x.symm.trans h1)
      rw [List.filter_cons_of_neg (by simp [h1]), List.find?_cons_of_neg (by simp [h2]), ih]
    · rw [List.filter_cons_of_pos (by simp [h1])]
      by_cases h2 : t.pc = q
      · rw [List.find?_cons_of_pos (by simp [h2]), List.find?_cons_of_pos (by simp [h2])]
      · rw [List.find?_cons_of_neg (by simp [h2]), List.find?_cons_of_neg (by simp [h2]), ih]

theorem filter_reg (ts : List Tgt) (pc : Nat) :
    (ts.map (fun t => (t.pc, t.argc))).filter (fun t => t.1 != pc) =
      (ts.filter (fun t => t.pc != pc)).map (fun t => (t.pc, t.argc)) := by
  rw [List.filter_map]; rfl

/-- One event: what the model shows is what the specification says. -/
theorem step_rel {w : Nat} {s s1 : St} {σ : Spec} {e : Ev} {o : List Seen} (hr : Rel w s σ)
    (hok : okEv w σ e) (h : step s e = .ok (s1, o)) :
    Rel w s1 (σ.step e).1 ∧ o.map Seen.iter = (σ.step e).2 := by
  cases e with
  | fuzz pc argc =>
    rw [step] at h
    injection h with h
    injection h with h1 h2
    subst h1; subst h2
    unfold fuzzTarget
    simp only [Spec.step]
    by_cases h0 : pc = 0
    · rw [if_pos h0, if_pos (Or.inl h0)]; exact ⟨hr, rfl⟩
    · rw [if_neg h0]
      cases hf : s.find pc with
      | some t =>
        dsimp only
        rw [if_pos (Or.inr (by rw [hr.argc, hf]; rfl))]; exact ⟨hr, rfl⟩
      | none =>
        dsimp only
        rw [if_neg (by rw [hr.argc, hf]; simp [h0])]
        refine ⟨?_, rfl⟩
        constructor
        · simp only [List.map_append, List.map_cons, List.map_nil, hr.reg]
        · exact hr.calls
        · exact hr.wrapL
        · exact hr.wrapC
        · intro p hp
          obtain ⟨t, h1, h2⟩ := hr.args p hp
          refine ⟨t, ?_, h2⟩
          simp only [St.find, List.find?_append] at h1 ⊢
          rw [h1]; rfl
  | unfuzz pc =>
    rw [step] at h
    injection h with h
    injection h with h1 h2
    subst h1; subst h2
    unfold unfuzzTarget
    simp only [Spec.step]
    cases hf : s.find pc with
    | none =>
      dsimp only
      rw [if_neg (by rw [hr.argc, hf]; simp)]; exact ⟨hr, rfl⟩
    | some t =>
      dsimp only
      cases hl : lookupLive s pc with
      | some p =>
        dsimp only
        rw [if_neg]
        · exact ⟨hr, rfl⟩
        · rintro ⟨-, h3⟩
          have hm := List.mem_of_find?_eq_some hl
          have hp := List.find?_some hl
          apply h3 p.call
          · rw [hr.calls]; exact List.mem_map_of_mem hm
          · show p.pc = pc
            simpa using hp
      | none =>
        dsimp only
        have hno : ∀ p ∈ s.live, p.pc ≠ pc := by
          intro p hp
          have := List.find?_eq_none.1 hl p hp
          simpa using this
        rw [if_pos]
        · refine ⟨?_, rfl⟩
          constructor
          · show σ.reg.filter _ = _
            rw [hr.reg, filter_reg]
          · exact hr.calls
          · exact hr.wrapL
          · exact hr.wrapC
          · intro p hp
            obtain ⟨t, h1, h2⟩ := hr.args p hp
            refine ⟨t, ?_, h2⟩
            simp only [St.find] at h1 ⊢
            rw [find_filter (hno p hp)]; exact h1
        · refine ⟨by rw [hr.argc, hf]; rfl, ?_⟩
          rw [hr.calls]
          intro f hf'
          obtain ⟨p, hp, rfl⟩ := List.mem_map.1 hf'
          exact hno p hp
  | call e c =>
    rw [step] at h
    split at h
    · cases h
    · rename_i s2 o2 h2
      injection h with h
      injection h with h3 h4
      subst h3; subst h4
      exact pre_call hr hok.1 hok.2 h2
  | rep j c =>
    rw [step] at h
    split at h
    · cases h
    · rename_i s2 o2 h2
      injection h with h
      injection h with h3 h4
      subst h3; subst h4
      exact pre_rep hr hok h2
  | ret =>
    rw [step] at h
    split at h
    · cases h
    · rename_i s2 h2
      injection h with h
      injection h with h3 h4
      subst h3; subst h4
      obtain ⟨p, hl, a1, -, -, -, -, -, -, -, a2⟩ := popLive_eq h2
      refine ⟨?_, rfl⟩
      have hsub : ∀ q ∈ s2.live, q ∈ s.live := by
        intro q hq; rw [hl]; exact List.mem_cons_of_mem _ hq
      constructor
      · rw [a1]; exact hr.reg
      · show σ.calls.tail = _
        rw [hr.calls, hl]; rfl
      · intro q hq; exact hr.wrapL q (hsub q hq)
      · intro q hq
        rcases a2 with ⟨-, a2, -⟩ | ⟨-, a2, -⟩
        · rw [a2] at hq
          simp only [List.mem_cons] at hq
          rcases hq with rfl | hq
          · apply hr.wrapL; rw [hl]; exact List.mem_cons_self
          · exact hr.wrapC q hq
        · rw [a2] at hq; cases hq
      · intro q hq; rw [find_congr a1]; exact hr.args q (hsub q hq)
  | bb =>
    rw [step] at h
    injection h with h
    injection h with h1 h2
    subst h1; subst h2
    refine ⟨?_, rfl⟩
    unfold bbEvent
    split
    · exact hr
    · rename_i p ps hl
      dsimp only
      constructor
      · show σ.reg = _
        rw [hr.reg, List.map_map]
        apply List.map_congr_left
        intro t _
        simp only [Function.comp]
        split <;> rfl
      · exact hr.calls
      · exact hr.wrapL
      · exact hr.wrapC
      · intro q hq
        obtain ⟨t, h1, h2⟩ := hr.args q hq
        simp only [St.find] at h1 ⊢
        rw [List.find?_map]
        have : ((fun t : Tgt => t.pc == q.pc) ∘ fun t =>
            if t.tid = p.tid then { t with bbs := t.bbs + 1 } else t) =
            (fun t : Tgt => t.pc == q.pc) := by
          funext t
          simp only [Function.comp]
          split <;> rfl
        rw [this, h1]
        refine ⟨_, rfl, ?_⟩
        simp only
        split <;> exact h2
  | fault code a =>
    rw [step] at h
    split at h
    · cases h
    · rename_i s2 h2
      injection h with h
      injection h with h3 h4
      subst h3; subst h4
      obtain ⟨a1, a2, a3, -⟩ := faultEvent_eq h2
      exact ⟨hr.congr a1 a2 a3, rfl⟩
  | user pc v =>
    rw [step] at h
    injection h with h
    injection h with h1 h2
    subst h1; subst h2
    refine ⟨?_, rfl⟩
    unfold setUser
    split
    · exact hr
    · rename_i q hq
      have key : ∀ p ∈ s.live.map (fun p => if p.pid = q.pid then { p with user := v } else p),
          ∃ p0 ∈ s.live, p.call = p0.call ∧ p.wrapcxt = p0.wrapcxt := by
        intro p hp
        obtain ⟨p0, hp0, rfl⟩ := List.mem_map.1 hp
        refine ⟨p0, hp0, ?_⟩
        split <;> exact ⟨rfl, rfl⟩
      constructor
      · exact hr.reg
      · show σ.calls = _
        rw [hr.calls, List.map_map]
        apply List.map_congr_left
        intro p _
        simp only [Function.comp]
        split <;> rfl
      · intro p hp
        obtain ⟨p0, hp0, -, h2⟩ := key p hp
        rw [h2]; exact hr.wrapL p0 hp0
      · exact hr.wrapC
      · intro p hp
        obtain ⟨p0, hp0, h1, -⟩ := key p hp
        obtain ⟨t, h3, h4⟩ := hr.args p0 hp0
        refine ⟨t, ?_, ?_⟩
        · show s.find p.pc = some t
          rw [show p.pc = p0.pc from congrArg Call.pc h1]; exact h3
        · rw [show p.orig = p0.orig from congrArg Call.args h1]; exact h4

theorem run_rel {w : Nat} {evs : List Ev} {s s1 : St} {σ : Spec} {o : List Seen}
    (hr : Rel w s σ) (hok : okRun w σ evs) (h : run s evs = .ok (s1, o)) :
    Rel w s1 (σ.run evs).1 ∧ o.map Seen.iter = (σ.run evs).2 := by
  induction evs generalizing s σ o with
  | nil =>
    rw [run] at h
    injection h with h
    injection h with h1 h2
    subst h1; subst h2
    exact ⟨hr, rfl⟩
  | cons e es ih =>
    rw [run] at h
    split at h
    · cases h
    · rename_i s2 o1 h1
      split at h
      · cases h
      · rename_i s3 o2 h2
        injection h with h
        injection h with h3 h4
        subst h3; subst h4
        obtain ⟨a1, a2⟩ := step_rel hr hok.1 h1
        obtain ⟨b1, b2⟩ := ih a1 hok.2 h2
        refine ⟨b1, ?_⟩
        rw [List.map_append, a2, b2]; rfl

theorem rel_init (w : Nat) : Rel w {} {} := by
  constructor
  · rfl
  · rfl
  · intro p hp; cases hp
  · intro p hp; cases hp
  · intro p hp; cases hp

/-- C70.  Whatever the application and the client do, and in every iteration of every
target: the client finds the arguments the application passed in the call that
is being fuzzed, whatever the earlier iterations did to them; the target runs
with exactly the client's changes to them, with the stack pointer of that call,
and returns to where that call returns.  And the targets the library holds for
live are the calls that have not returned, innermost first.

Asked: no target is called directly from itself, and the wrap context is at the
same place on every entry. -/
theorem C70_iterations (w : Nat) (evs : List Ev) (s : St) (obs : List Seen)
    (hok : okRun w {} evs) (h : run {} evs = .ok (s, obs)) :
    obs.map Seen.iter = (Spec.run {} evs).2 ∧
      s.live.map Pass.call = (Spec.run {} evs).1.calls := by
  obtain ⟨a, b⟩ := run_rel (rel_init w) hok h
  exact ⟨b, a.calls.symm⟩

end Verif.DrFuzz
