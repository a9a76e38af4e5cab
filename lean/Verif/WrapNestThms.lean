import Verif.WrapNest

/- Helper lemmas on nested heap calls. -/
namespace Verif.WrapNest

open Verif.Wrap (Kind upd)

/-- The level of the changed call, 0 if there is none. -/
def lvl : List Frame → Nat
  | [] => 0
  | f :: fs => if f.changed then fs.length + 1 else lvl fs

/-- Is a changed call active? -/
def busy (l : List Frame) : Bool := l.any (·.changed)

/-- The routines that are changed when they are the outermost of their kind. -/
def adjusts (rep : Bool) : R → Bool
  | .malloc | .calloc | .free | .size => true
  | .realloc => !rep
  | _ => false

/-- The pointer that is kept of a call. -/
def argBase (f : Frame) : Nat :=
  match f.r with
  | .malloc | .calloc => 0
  | _ => f.p

/-- The size that is kept of a call. -/
def argSize (f : Frame) : Nat :=
  match f.r with
  | .size => 0
  | _ => f.n

theorem lvl_le (l : List Frame) : lvl l ≤ l.length := by
  induction l with
  | nil => exact Nat.le_refl 0
  | cons f fs ih =>
    unfold lvl
    simp only [List.length_cons]
    split <;> omega

theorem lvl_pos (l : List Frame) : 0 < lvl l ↔ busy l = true := by
  induction l with
  | nil => simp [lvl, busy]
  | cons f fs ih =>
    unfold lvl
    by_cases h : f.changed = true
    · rw [if_pos h]; simp [busy, h]
    · rw [if_neg h, ih]; simp [busy, h]

theorem lvl_zero {l : List Frame} (h : busy l = false) : lvl l = 0 := by
  have := lvl_pos l
  rw [h] at this
  rcases Nat.eq_zero_or_pos (lvl l) with e | e
  · exact e
  · exact absurd (this.1 e) (by decide)

theorem busy_length {l : List Frame} (h : busy l = true) : 0 < l.length := by
  cases l with
  | nil => cases h
  | cons f fs => simp

/-- A frame is changed iff its routine is and no outer one was; no frame is of a delete. -/
def Ok (rep : Bool) : List Frame → Prop
  | [] => True
  | f :: fs => f.changed = (adjusts rep f.r && !busy fs) ∧ f.r.isDelete = false ∧ Ok rep fs

/-- The routines are those recorded. -/
def Names (info : Nat → R) : List Frame → Prop
  | [] => True
  | f :: fs => (fs.length + 1 < maxNest → info (fs.length + 1) = f.r) ∧ Names info fs

/-- The arguments kept are those of the changed call. -/
def Args (b n : Nat) : List Frame → Prop
  | [] => True
  | f :: fs => if f.changed then b = argBase f ∧ n = argSize f else Args b n fs

theorem Names.upd {info : Nat → R} {fs : List Frame} (h : Names info fs) {k : Nat} (hk : fs.length < k) (r : R) :
    Names (upd info k r) fs := by
  induction fs with
  | nil => trivial
  | cons f fs ih =>
    simp only [List.length_cons] at hk
    refine ⟨?_, ih h.2 (by omega)⟩
    intro hl
    have e : ¬ fs.length + 1 = k := by omega
    have := h.1 hl
    unfold Wrap.upd
    rw [if_neg e]
    exact this

theorem Args.none {b n : Nat} {fs : List Frame} (h : busy fs = false) : Args b n fs := by
  induction fs with
  | nil => trivial
  | cons f fs ih =>
    simp only [busy, List.any_cons, Bool.or_eq_false_iff] at h
    unfold Args
    rw [h.1]
    exact ih h.2

/-- What holds with exceptions too. -/
structure Inv (rep : Bool) (s : St) : Prop where
  depth : s.pt.depth = s.stack.length
  adj : s.pt.adj = lvl s.stack
  ok : Ok rep s.stack
  names : Names s.pt.info s.stack
  args : Args s.pt.base s.pt.size s.stack

theorem Inv.start (rep : Bool) : Inv rep St.init := ⟨rfl, rfl, trivial, trivial, trivial⟩

theorem record_same (pt : Pt) (r : R) : (record pt r).depth = pt.depth ∧ (record pt r).adj = pt.adj ∧
    (record pt r).base = pt.base ∧ (record pt r).size = pt.size ∧ (record pt r).info = pt.info ∧
    (record pt r).inheap = pt.inheap ∧ (record pt r).inCalloc = pt.inCalloc ∧
    (record pt r).fromCalloc = pt.fromCalloc ∧ (record pt r).inRealloc = pt.inRealloc := by
  unfold record
  cases r <;> dsimp only <;> first | exact ⟨rfl, rfl, rfl, rfl, rfl, rfl, rfl, rfl, rfl⟩ | (split <;> exact ⟨rfl, rfl, rfl, rfl, rfl, rfl, rfl, rfl, rfl⟩)

theorem recursive_eq {pt : Pt} {fs : List Frame} (hd : pt.depth = fs.length + 1) (ha : pt.adj = lvl fs) :
    recursive pt = busy fs := by
  unfold recursive
  rw [hd, ha]
  cases hb : busy fs with
  | true =>
    have h1 := busy_length hb
    have h2 := (lvl_pos fs).2 hb
    have e1 : fs.length + 1 > 1 := by omega
    simp [h1, h2]
  | false => rw [lvl_zero hb]; simp

/-- The thread after the pre hook has entered the routine. -/
theorem enter_inv {rep : Bool} {s : St} (h : Inv rep s) (r : R) :
    (enter (record s.pt r) r).depth = s.stack.length + 1 ∧ (enter (record s.pt r) r).adj = lvl s.stack ∧
    (enter (record s.pt r) r).base = s.pt.base ∧ (enter (record s.pt r) r).size = s.pt.size ∧
    (∀ p n c, Names (enter (record s.pt r) r).info (⟨r, p, n, c⟩ :: s.stack)) := by
  obtain ⟨e1, e2, e3, e4, e5, -⟩ := record_same s.pt r
  unfold enter
  dsimp only
  rw [e1, e2, e3, e4, e5, h.depth]
  refine ⟨rfl, h.adj, rfl, rfl, ?_⟩
  intro p n c
  refine ⟨?_, ?_⟩
  · intro hl
    dsimp only at *
    rw [if_pos hl]
    unfold upd
    rw [if_pos rfl]
  · split
    · exact h.names.upd (by omega) r
    · exact h.names

/-- What a pre handler does: nothing, or it takes the call. -/
theorem handlePre_spec (rep : Bool) (pt : Pt) (r : R) (p n : Nat) (known : Bool) :
    changes (handlePre rep pt r p n known).2 = (adjusts rep r && !recursive pt) ∧
    (handlePre rep pt r p n known).1.depth = pt.depth ∧
    (handlePre rep pt r p n known).1.info = pt.info ∧
    (handlePre rep pt r p n known).1.allocator = pt.allocator ∧
    (handlePre rep pt r p n known).1.inheap = pt.inheap ∧
    (handlePre rep pt r p n known).1.fromCalloc = pt.fromCalloc ∧
    ((adjusts rep r && !recursive pt) = false →
      handlePre rep pt r p n known = (pt, [])) ∧
    ((adjusts rep r && !recursive pt) = true →
      (handlePre rep pt r p n known).1.adj = pt.depth ∧
      (handlePre rep pt r p n known).1.base = argBase ⟨r, p, n, true⟩ ∧
      (handlePre rep pt r p n known).1.size = argSize ⟨r, p, n, true⟩ ∧
      (handlePre rep pt r p n known).1.inCalloc = (pt.inCalloc || r = .calloc) ∧
      (handlePre rep pt r p n known).1.inRealloc = (pt.inRealloc || (r = .realloc ∧ p ≠ 0))) := by
  cases hr : recursive pt with
  | true =>
    have e : handlePre rep pt r p n known = (pt, []) := by
      unfold handlePre
      cases r <;> dsimp only <;> first | rfl | (rw [if_pos hr]; done) | skip
      cases rep
      · rw [if_neg (by decide), if_pos hr]
      · rfl
    rw [e]
    simp [changes]
  | false =>
    have hn : ¬ recursive pt = true := by rw [hr]; decide
    unfold handlePre
    cases r <;> dsimp only
    case malloc => rw [if_neg hn]; simp [changes, adjusts, handling, argBase, argSize]
    case calloc => rw [if_neg hn]; simp [changes, adjusts, handling, argBase, argSize]
    case size => rw [if_neg hn]; simp [changes, adjusts, handling, argBase, argSize]
    case free => rw [if_neg hn]; simp [changes, adjusts, handling, argBase, argSize]
    case realloc =>
      cases rep
      · rw [if_neg (by decide), if_neg hn]
        by_cases hp : p = 0
        · rw [if_pos hp]; simp [changes, adjusts, handling, argBase, argSize, hp]
        · rw [if_neg hp]; simp [changes, adjusts, handling, argBase, argSize, hp]
      · rw [if_pos rfl]; simp [changes, adjusts]
    all_goals simp [changes, adjusts]

theorem call_inv {rep : Bool} {s : St} (h : Inv rep s) (r : R) (p n : Nat) (known : Bool)
    (hr : r.isDelete = false) :
    changes (pre rep s.pt r p n known).2 = (adjusts rep r && !busy s.stack) ∧
    Inv rep ⟨(pre rep s.pt r p n known).1,
      ⟨r, p, n, changes (pre rep s.pt r p n known).2⟩ :: s.stack⟩ := by
  obtain ⟨h1, h2, h3, h4, h5⟩ := enter_inv h r
  have hrec := recursive_eq h1 h2
  unfold pre
  obtain ⟨g1, g2, g3, -, -, -, g4, g5⟩ := handlePre_spec rep (enter (record s.pt r) r) r p n known
  rw [hrec] at g1 g4 g5
  rw [g1]
  refine ⟨rfl, ?_⟩
  cases hc : (adjusts rep r && !busy s.stack) with
  | false =>
    rw [g4 hc]
    refine ⟨h1, ?_, ⟨hc.symm, hr, h.ok⟩, h5 _ _ _, ?_⟩
    · rw [h2]; rfl
    · dsimp only; rw [h3, h4]; exact h.args
  | true =>
    obtain ⟨k1, k2, k3, -, -⟩ := g5 hc
    refine ⟨?_, ?_, ⟨hc.symm, hr, h.ok⟩, ?_, ?_⟩
    · dsimp only; rw [g2, h1]; rfl
    · dsimp only; rw [k1, h1]; rfl
    · dsimp only; rw [g3]; exact h5 _ _ _
    · dsimp only; rw [k2, k3]; exact ⟨rfl, rfl⟩

theorem handlePost_same (rep : Bool) (pt : Pt) (r : R) : (handlePost rep pt r).1.depth = pt.depth ∧
    (handlePost rep pt r).1.adj = pt.adj ∧ (handlePost rep pt r).1.base = pt.base ∧
    (handlePost rep pt r).1.size = pt.size ∧ (handlePost rep pt r).1.info = pt.info ∧
    (handlePost rep pt r).1.inheap = pt.inheap := by
  unfold handlePost
  cases r <;> dsimp only <;> try exact ⟨rfl, rfl, rfl, rfl, rfl, rfl⟩
  · unfold mallocPost; split <;> exact ⟨rfl, rfl, rfl, rfl, rfl, rfl⟩
  · unfold callocPost; split <;> exact ⟨rfl, rfl, rfl, rfl, rfl, rfl⟩
  · unfold reallocPost mallocPost
    split
    · exact ⟨rfl, rfl, rfl, rfl, rfl, rfl⟩
    · split
      · split <;> exact ⟨rfl, rfl, rfl, rfl, rfl, rfl⟩
      · exact ⟨rfl, rfl, rfl, rfl, rfl, rfl⟩

theorem post_same (rep gone : Bool) (pt : Pt) (r : R) : (post rep gone pt r).1.depth = (leave pt).depth ∧
    (post rep gone pt r).1.adj = (leave pt).adj ∧ (post rep gone pt r).1.base = pt.base ∧
    (post rep gone pt r).1.size = pt.size ∧ (post rep gone pt r).1.info = pt.info := by
  unfold post
  split
  · exact ⟨rfl, rfl, rfl, rfl, rfl⟩
  · split
    · exact ⟨rfl, rfl, rfl, rfl, rfl⟩
    · obtain ⟨a, b, c, d, e, -⟩ := handlePost_same rep
        { leave pt with inheap := if (leave pt).depth = 0 then false else (leave pt).inheap } r
      exact ⟨a, b, c, d, e⟩

/-- The counters on the way out. -/
theorem leave_inv {rep : Bool} {pt : Pt} {f : Frame} {fs : List Frame} (h : Inv rep ⟨pt, f :: fs⟩) :
    (leave pt).depth = fs.length ∧ (leave pt).adj = lvl fs ∧ (decide (pt.depth = pt.adj) = f.changed) := by
  have hd := h.depth
  have ha := h.adj
  simp only [List.length_cons] at hd
  have hl := lvl_le fs
  unfold leave
  dsimp only at *
  cases hc : f.changed with
  | true =>
    have hb : busy fs = false := by
      have := h.ok.1
      rw [hc] at this
      revert this
      cases adjusts rep f.r <;> cases busy fs <;> simp
    have e : pt.adj = fs.length + 1 := by rw [ha]; unfold lvl; rw [if_pos hc]
    have e2 : pt.depth = pt.adj := by omega
    rw [if_pos e2, lvl_zero hb]
    exact ⟨by omega, rfl, by simp [e2]⟩
  | false =>
    have e : pt.adj = lvl fs := by rw [ha, lvl, if_neg (by rw [hc]; decide)]
    have e2 : ¬ pt.depth = pt.adj := by omega
    rw [if_neg e2]
    exact ⟨by omega, e, by simp [e2]⟩

theorem post_inv {rep gone : Bool} {pt : Pt} {f : Frame} {fs : List Frame} (h : Inv rep ⟨pt, f :: fs⟩) (r : R) :
    Inv rep ⟨(post rep gone pt r).1, fs⟩ := by
  obtain ⟨a, b, c, d, e⟩ := post_same rep gone pt r
  obtain ⟨l1, l2, -⟩ := leave_inv h
  refine ⟨?_, ?_, h.ok.2.2, ?_, ?_⟩
  · dsimp only; rw [a, l1]
  · dsimp only; rw [b, l2]
  · dsimp only; rw [e]; exact h.names.2
  · dsimp only
    rw [c, d]
    cases hc : f.changed with
    | true =>
      have hb : busy fs = false := by
        have := h.ok.1
        rw [hc] at this
        revert this
        cases adjusts rep f.r <;> cases busy fs <;> simp
      exact Args.none hb
    | false =>
      have := h.args
      dsimp only at this
      unfold Args at this
      rw [hc] at this
      exact this

theorem skip_eq {rep : Bool} {pt : Pt} {f : Frame} {fs : List Frame} (h : Inv rep ⟨pt, f :: fs⟩) :
    skip (leave pt) (decide (pt.depth = pt.adj)) = (!f.changed && (busy fs || !fs.isEmpty)) := by
  obtain ⟨l1, l2, l3⟩ := leave_inv h
  unfold skip
  rw [l1, l2, l3]
  cases hc : f.changed with
  | true =>
    have hb : busy fs = false := by
      have := h.ok.1
      rw [hc] at this
      revert this
      cases adjusts rep f.r <;> cases busy fs <;> simp
    rw [lvl_zero hb]; simp
  | false =>
    cases hb : busy fs with
    | true =>
      have := (lvl_pos fs).2 hb
      simp [this]
    | false =>
      rw [lvl_zero hb]
      cases fs <;> simp

/-- A return, and what comes of it. -/
theorem ret_cases {rep gone : Bool} {s s' : St} {l : List Act} (h : Inv rep s)
    (hs : step rep s (if gone then .unwind else .ret) = some (s', l)) :
    (s.stack = [] ∧ s' = s ∧ l = []) ∨
    ∃ f fs, s.stack = f :: fs ∧ s.stack.length < maxNest ∧ s'.stack = fs ∧
      s' = ⟨(post rep gone s.pt f.r).1, fs⟩ ∧ l = (post rep gone s.pt f.r).2 := by
  cases hst : s.stack with
  | nil =>
    left
    have : step rep s (if gone then .unwind else .ret) = some (s, []) := by
      cases gone <;> simp only [step, hst] <;> rfl
    rw [this] at hs
    cases hs
    exact ⟨rfl, rfl, rfl⟩
  | cons f fs =>
    right
    have e : step rep s (if gone then .unwind else .ret) =
        (hookPost rep gone s.pt).map fun a => ((⟨a.1, fs⟩ : St), a.2) := by
      cases gone <;> simp only [step, hst] <;> rfl
    rw [e] at hs
    unfold hookPost at hs
    have hd := h.depth
    by_cases hm : s.pt.depth < maxNest
    · rw [if_pos hm] at hs
      simp only [Option.map_some, Option.some.injEq, Prod.mk.injEq] at hs
      have hn : s.pt.info s.pt.depth = f.r := by
        have := h.names
        rw [hst] at this hd
        rw [hd]
        rw [hd] at hm
        exact this.1 hm
      rw [hn] at hs
      refine ⟨f, fs, rfl, ?_, ?_, ?_, ?_⟩
      · rw [← hst, ← hd]; exact hm
      · rw [← hs.1]
      · exact hs.1.symm
      · exact hs.2.symm
    · rw [if_neg hm] at hs
      exact absurd hs (by simp)

theorem step_inv {rep : Bool} {s s' : St} {e : Ev} {l : List Act} (h : Inv rep s)
    (hs : step rep s e = some (s', l)) : Inv rep s' := by
  cases e with
  | call r p n known =>
    unfold step at hs
    dsimp only at hs
    by_cases hr : r.isDelete = true
    · rw [if_pos hr] at hs
      cases hs
      obtain ⟨e1, e2, e3, e4, e5, -⟩ := record_same s.pt r
      exact ⟨by dsimp only; rw [e1]; exact h.depth, by dsimp only; rw [e2]; exact h.adj, h.ok,
        by dsimp only; rw [e5]; exact h.names, by dsimp only; rw [e3, e4]; exact h.args⟩
    · rw [if_neg hr] at hs
      cases hs
      exact (call_inv h r p n known (by simpa using hr)).2
  | ret =>
    rcases ret_cases (gone := false) h hs with ⟨-, e, -⟩ | ⟨f, fs, e1, -, -, e2, -⟩
    · rw [e]; exact h
    · rw [e2]
      have h' : Inv rep ⟨s.pt, f :: fs⟩ := by rw [← e1]; exact h
      exact post_inv h' f.r
  | unwind =>
    rcases ret_cases (gone := true) h hs with ⟨-, e, -⟩ | ⟨f, fs, e1, -, -, e2, -⟩
    · rw [e]; exact h
    · rw [e2]
      have h' : Inv rep ⟨s.pt, f :: fs⟩ := by rw [← e1]; exact h
      exact post_inv h' f.r

theorem Reach.inv {rep ex : Bool} {s : St} (h : Reach rep ex s) : Inv rep s := by
  induction h with
  | init => exact Inv.start rep
  | step _ _ hs ih => exact step_inv ih hs

/-! ## Without exceptions -/

/-- The kind that the outermost call stands for. -/
def outerKind : List Frame → Kind
  | [] => .unknown
  | [f] =>
    match f.r with
    | .new => .new
    | .newArray => .newArray
    | .malloc | .calloc | .realloc => .malloc
    | _ => .unknown
  | _ :: g :: fs => outerKind (g :: fs)

/-- Is the changed call one such? -/
def holds (q : Frame → Bool) (l : List Frame) : Bool := l.any fun f => f.changed && q f

/-- What holds without exceptions. -/
structure Clean (s : St) : Prop where
  inheap : s.pt.inheap = !s.stack.isEmpty
  calloc : s.pt.inCalloc = holds (fun f => decide (f.r = .calloc)) s.stack
  realloc : s.pt.inRealloc = holds (fun f => decide (f.r = .realloc ∧ f.p ≠ 0)) s.stack
  from' : s.pt.fromCalloc = false
  kind : s.pt.allocator = .unknown ∨ s.pt.allocator = outerKind s.stack

theorem holds_none {q : Frame → Bool} {l : List Frame} (h : busy l = false) : holds q l = false := by
  induction l with
  | nil => rfl
  | cons f fs ih =>
    simp only [busy, List.any_cons, Bool.or_eq_false_iff] at h
    simp only [holds, List.any_cons, h.1, Bool.false_and, Bool.false_or]
    exact ih h.2

theorem Clean.start : Clean St.init := ⟨rfl, rfl, rfl, rfl, .inl rfl⟩

theorem Clean.idle {s : St} (h : Clean s) (hs : s.stack = []) : s.pt.allocator = .unknown := by
  rcases h.kind with e | e
  · exact e
  · rw [e, hs]; rfl

/-- The kind after the pre hook. -/
theorem record_kind {s : St} (h : Clean s) {rep : Bool} (hi : Inv rep s) (r : R) (p n : Nat) (c : Bool)
    (hr : r.isDelete = false) :
    ((record s.pt r).allocator = .unknown ∨ (record s.pt r).allocator = outerKind (⟨r, p, n, c⟩ :: s.stack)) ∧
    ((s.stack = [] ∨ s.pt.allocator = outerKind s.stack) →
      (record s.pt r).allocator = outerKind (⟨r, p, n, c⟩ :: s.stack)) := by
  cases hst : s.stack with
  | nil =>
    have hd : s.pt.depth = 0 := by rw [hi.depth, hst]; rfl
    have hk := h.idle hst
    have e : (record s.pt r).allocator = outerKind [⟨r, p, n, c⟩] := by
      unfold record outerKind
      cases r <;> first | (simp [hd, hk, R.kind]; done) | (cases hr)
    exact ⟨.inr e, fun _ => e⟩
  | cons f fs =>
    have hd : ¬ s.pt.depth = 0 := by rw [hi.depth, hst]; simp
    have e : (record s.pt r).allocator = s.pt.allocator := by
      unfold record
      cases r <;> simp [hd]
    rw [e]
    refine ⟨?_, ?_⟩
    · rw [← hst]
      rcases h.kind with k | k
      · exact .inl k
      · right; rw [k, hst]; rfl
    · rintro (k | k)
      · cases k
      · exact k

theorem call_clean {rep : Bool} {s : St} (h : Clean s) (hi : Inv rep s) (r : R) (p n : Nat) (known : Bool)
    (hr : r.isDelete = false) :
    Clean ⟨(pre rep s.pt r p n known).1, ⟨r, p, n, changes (pre rep s.pt r p n known).2⟩ :: s.stack⟩ := by
  have hc := (call_inv hi r p n known hr).1
  obtain ⟨e1, e2, e3, e4, e5, e6, e7, e8, e9⟩ := record_same s.pt r
  obtain ⟨h1, h2, -⟩ := enter_inv hi r
  have hrec := recursive_eq h1 h2
  have hk := (record_kind h hi r p n (changes (pre rep s.pt r p n known).2) hr).1
  rw [hc] at hk ⊢
  unfold pre
  obtain ⟨-, -, -, g1, g2, g3, g4, g5⟩ := handlePre_spec rep (enter (record s.pt r) r) r p n known
  rw [hrec] at g4 g5
  refine ⟨?_, ?_, ?_, ?_, ?_⟩
  · dsimp only
    rw [g2]
    unfold enter
    dsimp only
    rw [e1, e6, hi.depth, h.inheap]
    cases s.stack <;> simp
  · dsimp only
    cases ha : (adjusts rep r && !busy s.stack) with
    | false =>
      rw [g4 ha]
      simp only [holds, List.any_cons, Bool.false_and, Bool.false_or]
      unfold enter; dsimp only; rw [e7]; exact h.calloc
    | true =>
      obtain ⟨-, -, -, k, -⟩ := g5 ha
      rw [k]
      simp only [holds, List.any_cons, Bool.true_and]
      unfold enter; dsimp only
      rw [e7, h.calloc, Bool.or_comm]
      rfl
  · dsimp only
    cases ha : (adjusts rep r && !busy s.stack) with
    | false =>
      rw [g4 ha]
      simp only [holds, List.any_cons, Bool.false_and, Bool.false_or]
      unfold enter; dsimp only; rw [e9]; exact h.realloc
    | true =>
      obtain ⟨-, -, -, -, k⟩ := g5 ha
      rw [k]
      simp only [holds, List.any_cons, Bool.true_and]
      unfold enter; dsimp only
      rw [e9, h.realloc, Bool.or_comm]
      rfl
  · dsimp only
    rw [g3]
    unfold enter; dsimp only; rw [e8]; exact h.from'
  · dsimp only
    rw [g1]
    exact hk

theorem outerKind_cons {f : Frame} {fs : List Frame} (h : fs ≠ []) : outerKind (f :: fs) = outerKind fs := by
  cases fs with
  | nil => exact absurd rfl h
  | cons g gs => rfl

/-- What is done for a changed call when it returns. -/
def expected (f : Frame) (k : Kind) : List Act :=
  match f.r with
  | .malloc => [.block f.n k false]
  | .calloc => [.block f.n k true]
  | .realloc => if f.p = 0 then [.block f.n k false] else [.moved f.p f.n k]
  | .size => [.sized f.p]
  | _ => []

theorem ret_unchanged {rep gone : Bool} {pt : Pt} {f : Frame} {fs : List Frame} (hi : Inv rep ⟨pt, f :: fs⟩)
    (hc : f.changed = false) : (post rep gone pt f.r).2 = [] ∧
      ((post rep gone pt f.r).1.inCalloc = pt.inCalloc ∧ (post rep gone pt f.r).1.inRealloc = pt.inRealloc ∧
       (post rep gone pt f.r).1.fromCalloc = pt.fromCalloc) := by
  unfold post
  cases gone with
  | true => exact ⟨rfl, rfl, rfl, rfl⟩
  | false =>
    rw [if_neg (by decide)]
    have hsk := skip_eq hi
    have hok := hi.ok.1
    rw [hc] at hsk hok
    by_cases hs : skip (leave pt) (decide (pt.depth = pt.adj)) = true
    · rw [if_pos hs]; exact ⟨rfl, rfl, rfl, rfl⟩
    · rw [if_neg hs]
      have hb : busy fs = false := by
        rw [hsk] at hs
        revert hs
        cases busy fs <;> simp
      rw [hb] at hok
      have ha : adjusts rep f.r = false := by
        revert hok
        cases adjusts rep f.r <;> simp
      dsimp only
      unfold handlePost
      cases hr : f.r <;> rw [hr] at ha <;> dsimp only <;> first | exact ⟨rfl, rfl, rfl, rfl⟩ | (cases ha; done) | skip
      have hrep : rep = true := by
        unfold adjusts at ha
        revert ha
        cases rep <;> simp
      unfold reallocPost
      rw [if_pos hrep]
      exact ⟨rfl, rfl, rfl, rfl⟩

theorem ret_changed {rep : Bool} {pt : Pt} {f : Frame} {fs : List Frame} (hi : Inv rep ⟨pt, f :: fs⟩)
    (h : Clean ⟨pt, f :: fs⟩) (hc : f.changed = true) :
    (post rep false pt f.r).2 = expected f pt.allocator ∧
    (post rep false pt f.r).1.inCalloc = false ∧ (post rep false pt f.r).1.inRealloc = false ∧
    (post rep false pt f.r).1.fromCalloc = false ∧ (post rep false pt f.r).1.allocator = .unknown := by
  have hok := hi.ok.1
  have hargs := hi.args
  dsimp only at hargs
  unfold Args at hargs
  rw [if_pos hc] at hargs
  have hb : busy fs = false := by
    rw [hc] at hok
    revert hok
    cases adjusts rep f.r <;> cases busy fs <;> simp
  have ha : adjusts rep f.r = true := by
    rw [hc] at hok
    revert hok
    cases adjusts rep f.r <;> simp
  have hcal : pt.inCalloc = decide (f.r = .calloc) := by
    have := h.calloc
    dsimp only at this
    have hn := holds_none (q := fun f => decide (f.r = .calloc)) hb
    unfold holds at this hn
    rw [List.any_cons, hn, hc] at this
    rw [this]; simp
  have hrea : pt.inRealloc = decide (f.r = .realloc ∧ f.p ≠ 0) := by
    have := h.realloc
    dsimp only at this
    have hn := holds_none (q := fun f => decide (f.r = .realloc ∧ f.p ≠ 0)) hb
    unfold holds at this hn
    rw [List.any_cons, hn, hc] at this
    rw [this]; simp
  have hfr := h.from'
  dsimp only at hfr
  have hsk := skip_eq hi
  rw [hc] at hsk
  unfold post
  rw [if_neg (by decide), if_neg (by rw [hsk]; simp)]
  dsimp only
  unfold handlePost
  cases hr : f.r <;> rw [hr] at ha hcal hrea <;> dsimp only <;>
    simp only [argBase, argSize, hr] at hargs <;>
    first | (cases ha; done) | skip
  · unfold mallocPost leave expected
    rw [hr]
    simp [hcal, hrea, hfr, hargs]
  · unfold callocPost leave expected
    rw [hr]
    simp [hrea, hfr, hargs]
  · have hrep : rep = false := by
      unfold adjusts at ha
      revert ha
      cases rep <;> simp
    unfold reallocPost expected mallocPost leave
    rw [hr, hrep]
    by_cases hp : f.p = 0
    · simp [hcal, hrea, hfr, hargs, hp]
    · simp [hcal, hfr, hargs, hp]
  · unfold leave expected
    rw [hr]
    simp [hcal, hrea, hfr]
  · unfold leave expected
    rw [hr]
    simp [hcal, hrea, hfr, hargs]

theorem post_allocator (rep : Bool) (pt : Pt) (r : R) : (post rep false pt r).1.allocator = .unknown ∨
    (post rep false pt r).1.allocator = pt.allocator := by
  unfold post
  rw [if_neg (by decide)]
  split
  · exact .inr rfl
  · exact .inl rfl

theorem post_inheap {rep : Bool} {pt : Pt} {f : Frame} {fs : List Frame} (hi : Inv rep ⟨pt, f :: fs⟩)
    (h : pt.inheap = true) : (post rep false pt f.r).1.inheap = !fs.isEmpty ∧
      (fs = [] → (post rep false pt f.r).1.allocator = .unknown) := by
  have hsk := skip_eq hi
  obtain ⟨l1, -, -⟩ := leave_inv hi
  unfold post
  rw [if_neg (by decide)]
  by_cases hs : skip (leave pt) (decide (pt.depth = pt.adj)) = true
  · rw [if_pos hs]
    rw [hsk] at hs
    cases fs with
    | nil => simp [busy] at hs
    | cons g gs => exact ⟨h, fun e => by cases e⟩
  · rw [if_neg hs]
    dsimp only
    rw [(handlePost_same rep _ f.r).2.2.2.2.2]
    refine ⟨?_, fun _ => rfl⟩
    dsimp only
    rw [l1]
    cases fs with
    | nil => rfl
    | cons g gs => exact h

theorem ret_clean {rep : Bool} {pt : Pt} {f : Frame} {fs : List Frame} (hi : Inv rep ⟨pt, f :: fs⟩)
    (h : Clean ⟨pt, f :: fs⟩) : Clean ⟨(post rep false pt f.r).1, fs⟩ := by
  have hin : pt.inheap = true := h.inheap
  obtain ⟨i1, i2⟩ := post_inheap hi hin
  have hkind : (post rep false pt f.r).1.allocator = .unknown ∨
      (post rep false pt f.r).1.allocator = outerKind fs := by
    by_cases e : fs = []
    · exact .inl (i2 e)
    · rcases post_allocator rep pt f.r with k | k
      · exact .inl k
      · rcases h.kind with j | j
        · exact .inl (k.trans j)
        · right; rw [k, ← outerKind_cons (f := f) e]; exact j
  cases hc : f.changed with
  | false =>
    obtain ⟨-, a, b, c⟩ := ret_unchanged (gone := false) hi hc
    have hcal := h.calloc
    have hrea := h.realloc
    unfold holds at hcal hrea
    dsimp only at hcal hrea
    rw [List.any_cons, hc] at hcal hrea
    simp only [Bool.false_and, Bool.false_or] at hcal hrea
    exact ⟨i1, by dsimp only; rw [a]; exact hcal, by dsimp only; rw [b]; exact hrea,
      by dsimp only; rw [c]; exact h.from', hkind⟩
  | true =>
    obtain ⟨-, a, b, c, -⟩ := ret_changed hi h hc
    have hb : busy fs = false := by
      have := hi.ok.1
      rw [hc] at this
      revert this
      cases adjusts rep f.r <;> cases busy fs <;> simp
    exact ⟨i1, by dsimp only; rw [a, holds_none hb], by dsimp only; rw [b, holds_none hb], c, hkind⟩

theorem record_delete {s : St} {rep : Bool} (hi : Inv rep s) (h : Clean s) (r : R) (hr : r.isDelete = true) :
    (record s.pt r).allocator = s.pt.allocator := by
  unfold record
  cases r <;> first | (cases hr; done) | skip
  all_goals
    dsimp only
    split
    · next hd =>
      rw [hi.depth] at hd
      have : s.stack = [] := List.length_eq_zero_iff.1 hd
      exact (h.idle this).symm
    · rfl

theorem Reach.clean {rep : Bool} {s : St} (h : Reach rep false s) : Clean s := by
  induction h with
  | init => exact Clean.start
  | @step s s' e l hr hx hs ih =>
    have hi := hr.inv
    cases e with
    | call r p n known =>
      unfold WrapNest.step at hs
      dsimp only at hs
      by_cases hd : r.isDelete = true
      · rw [if_pos hd] at hs
        cases hs
        obtain ⟨e1, e2, e3, e4, e5, e6, e7, e8, e9⟩ := record_same s.pt r
        refine ⟨?_, ?_, ?_, ?_, ?_⟩ <;> dsimp only
        · rw [e6]; exact ih.inheap
        · rw [e7]; exact ih.calloc
        · rw [e9]; exact ih.realloc
        · rw [e8]; exact ih.from'
        · rw [record_delete hi ih r hd]; exact ih.kind
      · rw [if_neg hd] at hs
        cases hs
        exact call_clean ih hi r p n known (by simpa using hd)
    | ret =>
      rcases ret_cases (gone := false) hi hs with ⟨-, e, -⟩ | ⟨f, fs, e1, -, -, e2, -⟩
      · rw [e]; exact ih
      · rw [e2]
        have hi' : Inv rep ⟨s.pt, f :: fs⟩ := by rw [← e1]; exact hi
        have ih' : Clean ⟨s.pt, f :: fs⟩ := by rw [← e1]; exact ih
        exact ret_clean hi' ih'
    | unwind => exact absurd (hx rfl) (by decide)

end Verif.WrapNest
