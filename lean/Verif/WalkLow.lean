import Verif.WalkProps

/-!
# The lowest frame of a thread (common/callstack.c:399-419, 2010-2019)

The end of `print_callstack`: what a walk leaves behind for the next ones.  `q` is the end of the
region that `dr_query_memory` finds at the stack pointer, if it does.
-/
namespace Verif.Walk

/-- `callstack_set_lowest_frame` (common/callstack.c:399-419). -/
def setLow (q : Option Nat) (p : Tls) : Tls :=
  match q with
  | some top => { p with low := top }
  | none => p

/-- The end of `print_callstack` (common/callstack.c:2010-2019). -/
def finish (q : Option Nat) (t : St) : Tls :=
  if t.lowest > t.tls.low then
    let p := if t.tls.low = 0 then setLow q t.tls else t.tls
    if t.lowest > p.low then { p with low := t.lowest } else p
  else t.tls

/-- The data of a thread after a number of walks, beginning with `p`; nothing else changes it
between them. -/
inductive After (p : Tls) : Tls → Prop
  | none : After p p
  | walk {p' : Tls} (e : Env) (xsp xbp max : Nat) (init : List Nat) (t : St) (q : Option Nat) :
      After p p' → Walks e xsp max (start e p' xsp xbp init) t → After p (finish q t)

/-! ## Lemmas -/

theorem find_low {e : Env} {p : Tls} {fp prior : Nat} {top : Bool} :
    (find e p fp prior top).2.2.low = p.low ∧ (find e p fp prior top).2.2.lowRa = p.lowRa := by
  unfold find
  dsimp only
  split
  · exact ⟨rfl, rfl⟩
  · split
    · exact ⟨rfl, rfl⟩
    · cases e.zeroed <;> split <;> first | exact ⟨rfl, rfl⟩ | (split <;> exact ⟨rfl, rfl⟩)

/-- The state after a round, whether or not it was the last. -/
def out : St ⊕ St → St
  | .inl t => t
  | .inr t => t

/-- The frames and both lowest frames are the same. -/
structure Keeps (s t : St) : Prop where
  lowest : t.lowest = s.lowest
  frames : t.frames = s.frames
  low : t.tls.low = s.tls.low

theorem scanFrom_keeps {e : Env} {s : St} {prior : Nat} : Keeps s (out (.inl (scanFrom e s prior))) :=
  ⟨rfl, rfl, find_low.1⟩

theorem next_low {e : Env} {s : St} {nfp ra : Nat} : Keeps s (out (next e s nfp ra)) := by
  unfold next
  dsimp only
  repeat' split
  all_goals first
    | exact scanFrom_keeps
    | exact ⟨rfl, rfl, rfl⟩

theorem more_low {e : Env} {max : Nat} {s : St} {nfp ra : Nat} :
    Keeps s (out (more e max s nfp ra)) := by
  unfold more
  dsimp only
  split
  · exact ⟨rfl, rfl, rfl⟩
  · obtain ⟨a, b, c⟩ := next_low (e := e) (s := { s with first := false, app := none }) (nfp := nfp)
      (ra := ra)
    exact ⟨a, b, c⟩

/-- What a round does to the lowest frame. -/
def LowStep (s t : St) : Prop :=
  t.tls.low = s.tls.low ∧
    ((t.lowest = s.lowest ∧ t.frames = s.frames) ∨
      (t.lowest = s.pc ∧ t.frames = s.frames ∧ s.first = true) ∨
      (t.lowest = s.pc ∧ t.frames.length = s.frames.length + 1))

theorem step_out {e : Env} {xsp max : Nat} {s : St} : LowStep s (out (step e xsp max s)) := by
  unfold step
  by_cases h1 : (s.app.isNone && !rdOk e s.pc 16) = true
  · rw [if_pos h1]
    exact ⟨rfl, .inl ⟨rfl, rfl⟩⟩
  rw [if_neg h1]
  dsimp only
  generalize (if s.custom ≠ 0 then s.custom else (s.app.getD (word e s.pc, word e (s.pc + 8))).2) = ra
  generalize (if s.pc < xsp then 0 else (s.app.getD (word e s.pc, word e (s.pc + 8))).1) = nfp
  by_cases h2 : (s.first && decide (s.num = 1) && decide (s.frames.head? = some ra)) = true
  · rw [if_pos h2]
    obtain ⟨a, b, c⟩ := more_low (e := e) (max := max)
      (s := { { s with custom := 0 } with lowest := s.pc }) (nfp := nfp) (ra := ra)
    simp only [Bool.and_eq_true] at h2
    exact ⟨c, .inr (.inl ⟨a, b, h2.1.1⟩)⟩
  rw [if_neg h2]
  by_cases h3 : keeps e ra = true
  · rw [if_pos h3]
    by_cases h4 : ra = s.tls.lowRa ∧ s.tls.lowRa ≠ 0
    · rw [if_pos h4]
      exact ⟨rfl, .inr (.inr ⟨rfl, List.length_append⟩)⟩
    · rw [if_neg h4]
      obtain ⟨a, b, c⟩ := more_low (e := e) (max := max)
        (s := { { s with custom := 0 } with
          lowest := s.pc
          frames := s.frames ++ [ra]
          num := s.num + 1 }) (nfp := nfp) (ra := ra)
      exact ⟨c, .inr (.inr ⟨a, (congrArg List.length b).trans List.length_append⟩)⟩
  rw [if_neg h3]
  by_cases h5 : s.first = true
  · rw [if_pos h5]
    exact ⟨find_low.1, .inl ⟨rfl, rfl⟩⟩
  · rw [if_neg h5]
    obtain ⟨a, b, c⟩ := more_low (e := e) (max := max) (s := { s with custom := 0 }) (nfp := nfp)
      (ra := ra)
    exact ⟨c, .inl ⟨a, b⟩⟩

theorem step_low {e : Env} {xsp max : Nat} {s t : St}
    (h : step e xsp max s = .inl t ∨ step e xsp max s = .inr t) : LowStep s t := by
  have g := step_out (e := e) (xsp := xsp) (max := max) (s := s)
  rcases h with h | h <;> (rw [h] at g; exact g)

theorem loop_low {e : Env} {xsp max : Nat} : ∀ (n : Nat) (s t : St),
    loop e xsp max n s = (true, t) → t.tls.low = s.tls.low := by
  intro n
  induction n with
  | zero =>
    intro s t h
    unfold loop at h
    obtain ⟨-, rfl⟩ := Prod.mk.inj h
    rfl
  | succ n ih =>
    intro s t h
    unfold loop at h
    by_cases h0 : s.pc = 0
    · rw [if_pos h0] at h
      obtain ⟨-, rfl⟩ := Prod.mk.inj h
      rfl
    rw [if_neg h0] at h
    cases hst : step e xsp max s with
    | inr u =>
      rw [hst] at h
      obtain ⟨-, rfl⟩ := Prod.mk.inj h
      exact (step_low (.inr hst)).1
    | inl u =>
      rw [hst] at h
      exact (ih u t h).trans (step_low (.inl hst)).1

theorem start_low {e : Env} {p : Tls} {xsp xbp : Nat} {init : List Nat} :
    (start e p xsp xbp init).tls.low = p.low := by
  unfold start
  split
  · exact find_low.1
  · rfl

/-- The frames from the stack, with the lowest frame at the place of the last. -/
theorem loop_lowest {e : Env} {xsp max : Nat} {init : List Nat} : ∀ (n : Nat) (s t : St)
    (ras slots : List Nat), Inv e s → s.frames = init ++ ras → FromStack e ras slots →
    (s.pc ≠ 0 → ∀ a ∈ slots, a < s.pc + 8) → (s.first = true → slots = []) →
    (∀ a ∈ slots, a ≤ s.lowest + 8) → loop e xsp max n s = (true, t) →
    ∃ ras' slots', t.frames = init ++ ras' ∧ FromStack e ras' slots' ∧
      ∀ a ∈ slots', a ≤ t.lowest + 8 := by
  intro n
  induction n with
  | zero =>
    intro s t ras slots _ hf hs _ _ hle h
    unfold loop at h
    obtain ⟨-, rfl⟩ := Prod.mk.inj h
    exact ⟨ras, slots, hf, hs, hle⟩
  | succ n ih =>
    intro s t ras slots hi hf hs hlt hfst hle h
    unfold loop at h
    by_cases h0 : s.pc = 0
    · rw [if_pos h0] at h
      obtain ⟨-, rfl⟩ := Prod.mk.inj h
      exact ⟨ras, slots, hf, hs, hle⟩
    rw [if_neg h0] at h
    obtain ⟨s1, s2⟩ := step_spec (xsp := xsp) (max := max) hi
    have same : ∀ u, (step e xsp max s = .inl u ∨ step e xsp max s = .inr u) →
        u.frames = s.frames → ∀ a ∈ slots, a ≤ u.lowest + 8 := by
      intro u hu g a ha
      rcases (step_low hu).2 with ⟨q, -⟩ | ⟨-, -, q⟩ | ⟨-, q⟩
      · rw [q]; exact hle a ha
      · rw [hfst q] at ha; simp at ha
      · rw [g] at q; omega
    have adds : ∀ u, (step e xsp max s = .inl u ∨ step e xsp max s = .inr u) →
        Adds e s u → ∀ a ∈ slots ++ [s.pc + 8], a ≤ u.lowest + 8 := by
      intro u hu g a ha
      have hl : u.frames.length = s.frames.length + 1 := by rw [g.1]; simp
      have hq : u.lowest = s.pc := by
        rcases (step_low hu).2 with ⟨-, q⟩ | ⟨q, -⟩ | ⟨q, -⟩
        · rw [q] at hl; omega
        · exact q
        · exact q
      rw [hq]
      rcases List.mem_append.1 ha with ha | ha
      · exact Nat.le_of_lt (hlt h0 a ha)
      · rw [List.mem_singleton] at ha; omega
    cases hst : step e xsp max s with
    | inr u =>
      rw [hst] at h
      obtain ⟨-, rfl⟩ := Prod.mk.inj h
      rcases (s2 u hst).1 with g | g
      · exact ⟨ras, slots, by rw [g, hf], hs, same u (.inr hst) g⟩
      · obtain ⟨a, b⟩ := hs.snoc hf g (hlt h0)
        exact ⟨_, _, a, b, adds u (.inr hst) g⟩
    | inl u =>
      rw [hst] at h
      obtain ⟨hiu, hfu, -, hd⟩ := s1 u hst
      rcases hd with ⟨g, hup, -⟩ | ⟨g, hup, -⟩
      · refine ih u t ras slots hiu (by rw [g, hf]) hs ?_ (fun q => by rw [hfu] at q; simp at q)
          (same u (.inl hst) g) h
        intro hu0 a ha
        cases hsf : s.first with
        | true => rw [hfst hsf] at ha; simp at ha
        | false =>
          rcases hup hsf with q | q
          · exact absurd q hu0
          · have := hlt h0 a ha; omega
      · obtain ⟨a, b⟩ := hs.snoc hf g (hlt h0)
        refine ih u t _ _ hiu a b ?_ (fun q => by rw [hfu] at q; simp at q) (adds u (.inl hst) g) h
        intro hu0 c hc
        rcases hup with q | q
        · exact absurd q hu0
        · rcases List.mem_append.1 hc with hc | hc
          · have := hlt h0 c hc; omega
          · rw [List.mem_singleton] at hc; omega

theorem finish_ge {q : Option Nat} {t : St} :
    t.tls.low ≤ (finish q t).low ∧ t.lowest ≤ (finish q t).low := by
  unfold finish
  by_cases h : t.lowest > t.tls.low
  · rw [if_pos h]
    dsimp only
    by_cases h0 : t.tls.low = 0
    · rw [if_pos h0]
      by_cases h1 : t.lowest > (setLow q t.tls).low
      · rw [if_pos h1]
        exact ⟨Nat.le_of_lt h, Nat.le_refl _⟩
      · rw [if_neg h1]
        omega
    · rw [if_neg h0, if_pos h]
      exact ⟨Nat.le_of_lt h, Nat.le_refl _⟩
  · rw [if_neg h]
    omega

/-! ## C84, over the walks of a thread -/

/-- **C84**: after a walk the lowest frame known of the thread is no nearer to the top than it was
before, nor than any frame the walk has listed. -/
theorem C84_lowest {e : Env} {p : Tls} {xsp xbp max : Nat} {init : List Nat} {t : St}
    {q : Option Nat} (hp : Reach p) (hw : Walks e xsp max (start e p xsp xbp init) t) :
    p.low ≤ (finish q t).low ∧
    ∃ ras slots, t.frames = init ++ ras ∧ FromStack e ras slots ∧
      ∀ a ∈ slots, a ≤ (finish q t).low + 8 := by
  have h := hp.ok
  obtain ⟨n, hn⟩ := hw
  obtain ⟨hi, hf, -⟩ := start_inv (e := e) (xsp := xsp) (xbp := xbp) (init := init) h
  obtain ⟨g1, g2⟩ := finish_ge (q := q) (t := t)
  refine ⟨by rw [loop_low n _ t hn, start_low] at g1; exact g1, ?_⟩
  obtain ⟨ras, slots, a, b, c⟩ := loop_lowest n _ t [] [] hi (by rw [hf, List.append_nil])
    ⟨rfl, List.Pairwise.nil, fun a ha => by simp at ha⟩ (fun _ a ha => by simp at ha) (fun _ => rfl)
    (fun a ha => by simp at ha) hn
  exact ⟨ras, slots, a, b, fun x hx => Nat.le_trans (c x hx) (by omega)⟩

/-- **C84**: what becomes of the lowest frame: the frame found counts only if it is further down
than the one known; if none is known, the end of the stack's region is asked for first. -/
theorem C84_lowest_exact (q : Option Nat) (t : St) :
    (finish q t).low =
      if t.lowest ≤ t.tls.low then t.tls.low
      else if t.tls.low = 0 then Nat.max t.lowest (q.getD 0) else t.lowest := by
  unfold finish
  by_cases h : t.lowest > t.tls.low
  · rw [if_pos h, if_neg (show ¬ t.lowest ≤ t.tls.low by omega)]
    dsimp only
    by_cases h0 : t.tls.low = 0
    · rw [if_pos h0, if_pos h0]
      cases q with
      | none =>
        have e1 : (setLow none t.tls).low = 0 := h0
        rw [e1, if_pos (by omega)]
        exact (Nat.max_eq_left (Nat.zero_le _)).symm
      | some top =>
        have e1 : (setLow (some top) t.tls).low = top := rfl
        by_cases h1 : t.lowest > top
        · rw [e1, if_pos h1]
          exact (Nat.max_eq_left (Nat.le_of_lt h1)).symm
        · rw [e1, if_neg h1]
          exact (Nat.max_eq_right (Nat.le_of_not_lt h1)).symm
    · rw [if_neg h0, if_neg h0, if_pos h]
  · rw [if_neg h, if_pos (by omega)]

/-- **C84**: over all walks of a thread, on whatever stacks, the lowest frame never goes back. -/
theorem C84_lowest_grows {p p' : Tls} (h : After p p') : p.low ≤ p'.low := by
  induction h with
  | none => exact Nat.le_refl _
  | walk e xsp xbp max init t q _ hw ih =>
    obtain ⟨n, hn⟩ := hw
    have g := (finish_ge (q := q) (t := t)).1
    rw [loop_low n _ t hn, start_low] at g
    exact Nat.le_trans ih g

/-- **C84**: so once a walk has listed a frame on a stack at higher addresses, such as an alternate
stack, scanning the thread's own stack is no longer limited by its lowest frame. -/
theorem C84_lowest_lost {e : Env} {t : St} {q : Option Nat} {fp : Nat} {top : Bool}
    (h : fp + 64 ≤ t.lowest) : ¬ TooLow e (finish q t) fp top := by
  have g := (finish_ge (q := q) (t := t)).2
  intro hl
  rcases hl.2 with ⟨h1, -⟩ | ⟨-, h1⟩ <;> omega

/-- The walk of the chain of `demo`, on a thread of which nothing is known. -/
example : (loop demo 0x7ff008 20 10 (start demo {} 0x7ff008 0x7ff010 [])).2.lowest = 0x7ff040 ∧
    (finish (some 0x800000) (loop demo 0x7ff008 20 10 (start demo {} 0x7ff008 0x7ff010 [])).2).low =
      0x800000 ∧
    (finish none (loop demo 0x7ff008 20 10 (start demo {} 0x7ff008 0x7ff010 [])).2).low =
      0x7ff040 := by decide +kernel

example : Walks demo 0x7ff008 20 (start demo {} 0x7ff008 0x7ff010 [])
    (loop demo 0x7ff008 20 10 (start demo {} 0x7ff008 0x7ff010 [])).2 := ⟨10, by decide +kernel⟩

end Verif.Walk
