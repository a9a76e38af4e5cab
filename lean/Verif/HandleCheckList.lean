import Verif.HandleCheckProps
/-
C72: which part of the handle list of the system is taken for the one of the process.
-/
namespace Verif.HandleCheck

/-- The specification: `L` is the first run of entries of the process in the list, and it has the
number of handles that the process has, or it is the only run. -/
def Chosen (pid cnt : Nat) (l L : List Entry) : Prop :=
  ∃ a b, l = a ++ L ++ b ∧ L ≠ [] ∧ (∀ e ∈ L, e.pid = pid) ∧ (∀ e ∈ a, e.pid ≠ pid) ∧
    (∀ e r, b = e :: r → e.pid ≠ pid) ∧ (L.length = cnt ∨ ∀ e ∈ b, e.pid ≠ pid)

theorem scan_none (pid cnt : Nat) (l : List Entry) : (∀ e ∈ l, e.pid ≠ pid) → ∀ nm st n,
    scan pid cnt l nm st n = (nm, st, n) := by
  induction l with
  | nil => intro _ nm st n; unfold scan; rfl
  | cons e r ih =>
    intro h nm st n
    unfold scan
    rw [if_neg (h e List.mem_cons_self)]
    exact ih (fun x hx => h x (List.mem_cons_of_mem _ hx)) nm st n

theorem scan_skip (pid cnt : Nat) (a : List Entry) : (∀ e ∈ a, e.pid ≠ pid) → ∀ l nm st n,
    scan pid cnt (a ++ l) nm st n = scan pid cnt l nm st n := by
  induction a with
  | nil => intro _ l nm st n; rfl
  | cons e r ih =>
    intro h l nm st n
    rw [List.cons_append]
    conv => lhs; unfold scan
    rw [if_neg (h e List.mem_cons_self)]
    exact ih (fun x hx => h x (List.mem_cons_of_mem _ hx)) l nm st n

theorem takeWhile_run (pid : Nat) (L b : List Entry) (hL : ∀ e ∈ L, e.pid = pid)
    (hb : ∀ e r, b = e :: r → e.pid ≠ pid) :
    (L ++ b).takeWhile (fun x => decide (x.pid = pid)) = L := by
  induction L with
  | nil =>
    cases b with
    | nil => rfl
    | cons e r =>
      rw [List.nil_append, List.takeWhile_cons, if_neg (by simpa using hb e r rfl)]
  | cons e r ih =>
    rw [List.cons_append, List.takeWhile_cons, if_pos (by simpa using hL e List.mem_cons_self),
      ih (fun x hx => hL x (List.mem_cons_of_mem _ hx))]

theorem scan_run (pid cnt : Nat) (L b : List Entry) (hne : L ≠ []) (hL : ∀ e ∈ L, e.pid = pid)
    (hb : ∀ e r, b = e :: r → e.pid ≠ pid) (nm : Nat) (st : Option (List Entry)) (n : Nat) :
    scan pid cnt (L ++ b) nm st n =
      if L.length = cnt then (nm + 1, some (L ++ b), L.length)
      else scan pid cnt (b.drop 1) (nm + 1) (some (L ++ b)) L.length := by
  cases L with
  | nil => exact absurd rfl hne
  | cons e r =>
    have htw := takeWhile_run pid (e :: r) b hL hb
    rw [List.cons_append] at htw ⊢
    conv => lhs; unfold scan
    rw [if_pos (hL e List.mem_cons_self)]
    dsimp only
    rw [htw]
    by_cases hc : (e :: r).length = cnt
    · rw [if_pos hc, if_pos hc]
    · rw [if_neg hc, if_neg hc]
      congr 1
      rw [← List.cons_append, List.drop_append_of_le_length (Nat.le_refl _), List.drop_length,
        List.nil_append]

/-- Once an entry of the process comes, the count of runs grows and there is a start. -/
theorem scan_grow (pid cnt : Nat) : ∀ (m : Nat) (l : List Entry), l.length ≤ m → ∀ nm st n,
    nm ≤ (scan pid cnt l nm st n).1 ∧
    ((∃ e ∈ l, e.pid = pid) → nm + 1 ≤ (scan pid cnt l nm st n).1 ∧
      (scan pid cnt l nm st n).2.1 ≠ none) ∧
    (st ≠ none → (scan pid cnt l nm st n).2.1 ≠ none) := by
  intro m
  induction m with
  | zero =>
    intro l hl nm st n
    cases l with
    | nil =>
      unfold scan
      exact ⟨Nat.le_refl _, fun ⟨e, he, _⟩ => (by cases he), fun h => h⟩
    | cons e r => simp at hl
  | succ m ih =>
    intro l hl nm st n
    cases l with
    | nil =>
      unfold scan
      exact ⟨Nat.le_refl _, fun ⟨e, he, _⟩ => (by cases he), fun h => h⟩
    | cons e r =>
      unfold scan
      have hr : r.length ≤ m := by simpa using hl
      by_cases hp : e.pid = pid
      · rw [if_pos hp]
        dsimp only
        by_cases hc : ((e :: r).takeWhile (fun x => decide (x.pid = pid))).length = cnt
        · rw [if_pos hc]
          exact ⟨Nat.le_succ _, fun _ => ⟨Nat.le_refl _, Option.some_ne_none _⟩,
            fun _ => Option.some_ne_none _⟩
        · rw [if_neg hc]
          have := ih ((((e :: r).drop ((e :: r).takeWhile (fun x => decide (x.pid = pid))).length)).drop 1)
            (by simp only [List.length_drop, List.length_cons]; omega) (nm + 1) (some (e :: r))
            ((e :: r).takeWhile (fun x => decide (x.pid = pid))).length
          exact ⟨Nat.le_of_succ_le this.1, fun _ => ⟨this.1, this.2.2 (Option.some_ne_none _)⟩,
            fun _ => this.2.2 (Option.some_ne_none _)⟩
      · rw [if_neg hp]
        have := ih r hr nm st n
        refine ⟨this.1, fun ⟨x, hx, hxp⟩ => ?_, this.2.2⟩
        rcases List.mem_cons.mp hx with h | h
        · rw [h] at hxp; exact absurd hxp hp
        · exact this.2.1 ⟨x, h, hxp⟩

/-- The first run of the process. -/
theorem first_run (pid : Nat) (l : List Entry) (h : ∃ e ∈ l, e.pid = pid) :
    ∃ a L b, l = a ++ L ++ b ∧ L ≠ [] ∧ (∀ e ∈ L, e.pid = pid) ∧ (∀ e ∈ a, e.pid ≠ pid) ∧
      (∀ e r, b = e :: r → e.pid ≠ pid) := by
  induction l with
  | nil => obtain ⟨e, he, _⟩ := h; cases he
  | cons x r ih =>
    by_cases hx : x.pid = pid
    · refine ⟨[], x :: r.takeWhile (fun e => decide (e.pid = pid)), r.dropWhile (fun e => decide (e.pid = pid)),
        ?_, List.cons_ne_nil _ _, ?_, fun e he => (by cases he), ?_⟩
      · rw [List.nil_append, List.cons_append, List.takeWhile_append_dropWhile]
      · intro e he
        rcases List.mem_cons.mp he with he | he
        · rw [he]; exact hx
        · clear ih h
          induction r with
          | nil => cases he
          | cons y q ihq =>
            rw [List.takeWhile_cons] at he
            by_cases hy : y.pid = pid
            · rw [if_pos (by simpa using hy)] at he
              rcases List.mem_cons.mp he with he | he
              · rw [he]; exact hy
              · exact ihq (List.mem_cons_of_mem _ he) he
            · rw [if_neg (by simpa using hy)] at he
              cases he
      · intro e q hq
        clear ih h
        induction r with
        | nil => cases hq
        | cons y q' ihq =>
          rw [List.dropWhile_cons] at hq
          by_cases hy : y.pid = pid
          · rw [if_pos (by simpa using hy)] at hq
            exact ihq hq
          · rw [if_neg (by simpa using hy)] at hq
            cases hq
            exact hy
    · have hr : ∃ e ∈ r, e.pid = pid := by
        obtain ⟨e, he, hp⟩ := h
        rcases List.mem_cons.mp he with h' | h'
        · rw [h'] at hp; exact absurd hp hx
        · exact ⟨e, h', hp⟩
      obtain ⟨a, L, b, h1, h2, h3, h4, h5⟩ := ih hr
      refine ⟨x :: a, L, b, by rw [h1]; rfl, h2, h3, ?_, h5⟩
      intro e he
      rcases List.mem_cons.mp he with he | he
      · rw [he]; exact hx
      · exact h4 e he

/-- What the loop does with a list that has the process in it. -/
theorem scan_first (pid cnt : Nat) (a L b : List Entry) (hne : L ≠ []) (hL : ∀ e ∈ L, e.pid = pid)
    (ha : ∀ e ∈ a, e.pid ≠ pid) (hb : ∀ e r, b = e :: r → e.pid ≠ pid) :
    (L.length = cnt ∨ (∀ e ∈ b, e.pid ≠ pid) →
      scan pid cnt (a ++ L ++ b) 0 none 0 = (1, some (L ++ b), L.length)) ∧
    (¬ (L.length = cnt ∨ ∀ e ∈ b, e.pid ≠ pid) →
      2 ≤ (scan pid cnt (a ++ L ++ b) 0 none 0).1 ∧ (scan pid cnt (a ++ L ++ b) 0 none 0).2.1 ≠ none) := by
  rw [List.append_assoc, scan_skip pid cnt a ha, scan_run pid cnt L b hne hL hb]
  by_cases hc : L.length = cnt
  · rw [if_pos hc]
    exact ⟨fun _ => rfl, fun h => absurd (Or.inl hc) h⟩
  · rw [if_neg hc]
    constructor
    · rintro (h | h)
      · exact absurd h hc
      · exact scan_none pid cnt (b.drop 1) (fun e he => h e (List.mem_of_mem_drop he)) _ _ _
    · intro h
      have hex : ∃ e ∈ b.drop 1, e.pid = pid := by
        apply Classical.byContradiction
        intro hn
        apply h
        right
        intro e he hp
        cases b with
        | nil => cases he
        | cons x r =>
          rcases List.mem_cons.mp he with he | he
          · rw [he] at hp; exact hb x r rfl hp
          · exact hn ⟨e, he, hp⟩
      have := scan_grow pid cnt _ (b.drop 1) (Nat.le_refl _) (0 + 1) (some (L ++ b)) L.length
      exact this.2.1 hex

theorem run_unique (pid : Nat) (a L b a' L' b' : List Entry) (h : a ++ L ++ b = a' ++ L' ++ b')
    (hne : L ≠ []) (hne' : L' ≠ [])
    (hL : ∀ e ∈ L, e.pid = pid) (ha : ∀ e ∈ a, e.pid ≠ pid) (hb : ∀ e r, b = e :: r → e.pid ≠ pid)
    (hL' : ∀ e ∈ L', e.pid = pid) (ha' : ∀ e ∈ a', e.pid ≠ pid)
    (hb' : ∀ e r, b' = e :: r → e.pid ≠ pid) : L = L' ∧ b = b' := by
  induction a generalizing a' with
  | nil =>
    cases a' with
    | nil =>
      rw [List.nil_append, List.nil_append] at h
      have e1 := takeWhile_run pid L b hL hb
      rw [h, takeWhile_run pid L' b' hL' hb'] at e1
      rw [← e1] at h
      exact ⟨e1.symm, List.append_cancel_left h⟩
    | cons x r =>
      cases L with
      | nil => exact absurd rfl hne
      | cons y q =>
        rw [List.nil_append, List.cons_append, List.cons_append, List.cons_append] at h
        have := (List.cons.inj h).1
        exact absurd (hL y List.mem_cons_self) (by rw [this]; exact ha' x List.mem_cons_self)
  | cons x r ih =>
    cases a' with
    | nil =>
      cases L' with
      | nil => exact absurd rfl hne'
      | cons y q =>
        rw [List.nil_append, List.cons_append, List.cons_append, List.cons_append] at h
        have := (List.cons.inj h).1
        exact absurd (hL' y List.mem_cons_self) (by rw [← this]; exact ha x List.mem_cons_self)
    | cons x' r' =>
      rw [List.cons_append, List.cons_append, List.cons_append, List.cons_append] at h
      exact ih r' (List.cons.inj h).2 (fun e he => ha e (List.mem_cons_of_mem _ he))
        (fun e he => ha' e (List.mem_cons_of_mem _ he))

/-- The choice after the loop (handlecheck.c:230-245, 262-275). -/
def pickOf : Nat × Option (List Entry) × Nat → Option (List Entry)
  | (nm, some st, n) => if nm = 1 then some (st.take n) else none
  | (_, none, _) => none

theorem pick_iff (pid cnt : Nat) (l L : List Entry) :
    pickOf (scan pid cnt l 0 none 0) = some L ↔ Chosen pid cnt l L := by
  by_cases hex : ∃ e ∈ l, e.pid = pid
  · obtain ⟨a, L0, b, h1, h2, h3, h4, h5⟩ := first_run pid l hex
    have hs := scan_first pid cnt a L0 b h2 h3 h4 h5
    rw [← h1] at hs
    by_cases hc : L0.length = cnt ∨ ∀ e ∈ b, e.pid ≠ pid
    · rw [hs.1 hc]
      have hp : pickOf (1, some (L0 ++ b), L0.length) = some L0 := by
        show (if (1 : Nat) = 1 then some ((L0 ++ b).take L0.length) else none) = some L0
        rw [if_pos rfl, List.take_left' rfl]
      rw [hp]
      constructor
      · intro h
        cases h
        exact ⟨a, b, h1, h2, h3, h4, h5, hc⟩
      · rintro ⟨a', b', g1, g2, g3, g4, g5, _⟩
        rw [(run_unique pid a L0 b a' L b' (h1.symm.trans g1) h2 g2 h3 h4 h5 g3 g4 g5).1]
    · have hs2 := hs.2 hc
      constructor
      · intro h
        exfalso
        revert h hs2
        generalize scan pid cnt l 0 none 0 = q
        obtain ⟨nm, st, n⟩ := q
        intro h h2
        cases st with
        | none => exact absurd rfl h.2
        | some st =>
          change (if nm = 1 then some (st.take n) else none) = some L at h2
          rw [if_neg (by have := h.1; dsimp only at this; omega)] at h2
          cases h2
      · rintro ⟨a', b', g1, g2, g3, g4, g5, g6⟩
        exfalso
        have hu := run_unique pid a L0 b a' L b' (h1.symm.trans g1) h2 g2 h3 h4 h5 g3 g4 g5
        rw [← hu.1, ← hu.2] at g6
        exact hc g6
  · have hn : ∀ e ∈ l, e.pid ≠ pid := fun e he hp => hex ⟨e, he, hp⟩
    rw [scan_none pid cnt l hn]
    constructor
    · intro h; cases h
    · rintro ⟨a', b', g1, g2, g3, _⟩
      exfalso
      cases L with
      | nil => exact g2 rfl
      | cons x r =>
        apply hn x _ (g3 x List.mem_cons_self)
        rw [g1]
        simp

theorem findList_eq (pid cnt : Nat) (l : List Entry) : findList pid cnt l =
    match (scan pid cnt l 0 none 0).2.1 with
    | some _ => pickOf (scan pid cnt l 0 none 0)
    | none => if pid < 0x10000 then none else pickOf (scan (pid % 0x10000) cnt l 0 none 0) := by
  unfold findList
  generalize scan pid cnt l 0 none 0 = q
  obtain ⟨nm, st, n⟩ := q
  cases st with
  | some st => rfl
  | none =>
    dsimp only
    split
    · rfl
    · generalize scan (pid % 65536) cnt l 0 none 0 = q'
      obtain ⟨nm', st', n'⟩ := q'
      cases st' with
      | none => rfl
      | some st' => rfl

/-- C72: the list that is taken for the one of the process is the first run of entries with the
process id, if it has as many entries as the process has handles or if there is no other run;
otherwise no list is taken.  If the process id does not occur and does not fit 16 bits, the same
holds with its low 16 bits. -/
theorem C72_list (pid cnt : Nat) (l L : List Entry) :
    ((∃ e ∈ l, e.pid = pid) → (findList pid cnt l = some L ↔ Chosen pid cnt l L)) ∧
    ((¬ ∃ e ∈ l, e.pid = pid) → pid < 0x10000 → findList pid cnt l = none) ∧
    ((¬ ∃ e ∈ l, e.pid = pid) → 0x10000 ≤ pid →
      (findList pid cnt l = some L ↔ Chosen (pid % 0x10000) cnt l L)) := by
  rw [findList_eq]
  refine ⟨fun h => ?_, fun h hp => ?_, fun h hp => ?_⟩
  · have := ((scan_grow pid cnt _ l (Nat.le_refl _) 0 none 0).2.1 h).2
    rw [← pick_iff pid cnt l L]
    cases hq : (scan pid cnt l 0 none 0).2.1 with
    | none => exact absurd hq this
    | some st => exact Iff.rfl
  · rw [scan_none pid cnt l (fun e he hpp => h ⟨e, he, hpp⟩)]
    dsimp only
    rw [if_pos hp]
  · rw [scan_none pid cnt l (fun e he hpp => h ⟨e, he, hpp⟩)]
    dsimp only
    rw [if_neg (by omega)]
    exact pick_iff (pid % 0x10000) cnt l L

/-- C72, where the code falls short: the process has two handles and the list holds a run of just
two entries for it, after a run of three entries of a process whose id has the same low 16 bits.
The comment (handlecheck.c:196-200, 224) says that the run with the right count is taken; it is
found and then thrown away, because it is not the first one (230-241). -/
theorem C72_list_exact_lost :
    findList 0x20004 2 [⟨4, 8⟩, ⟨4, 12⟩, ⟨4, 16⟩, ⟨7, 4⟩, ⟨4, 20⟩, ⟨4, 24⟩] = none ∧
    findList 0x20004 2 [⟨4, 20⟩, ⟨4, 24⟩, ⟨7, 4⟩, ⟨4, 8⟩, ⟨4, 12⟩, ⟨4, 16⟩] =
      some [⟨4, 20⟩, ⟨4, 24⟩] := by
  constructor <;> decide +kernel

/-- C72, where the code falls short: the run of another process is taken when it comes first and
has the same number of handles. -/
theorem C72_list_other :
    findList 0x20004 2 [⟨4, 8⟩, ⟨4, 12⟩, ⟨7, 4⟩, ⟨4, 20⟩, ⟨4, 24⟩] = some [⟨4, 8⟩, ⟨4, 12⟩] := by
  decide +kernel

/-- C72, where the code falls short: after any error of the query but a length mismatch, the buffer
that nobody has written is taken for the list. -/
theorem C72_query_error (pid pcount n : Nat) (r : List Query) :
    processList pid pcount (List.replicate n .mismatch ++ .error :: r) = none := by
  have : systemList (List.replicate n .mismatch ++ .error :: r) = none := by
    induction n with
    | zero => rfl
    | succ n ih => rw [List.replicate_succ, List.cons_append]; exact ih
  unfold processList
  rw [this]

/-- If the query does not fail, the list is the one of C72_list. -/
theorem C72_query_ok (pid pcount n : Nat) (l : List Entry) (r : List Query) (h : pcount ≠ 0) :
    processList pid pcount (List.replicate n .mismatch ++ .ok l :: r) = some (findList pid pcount l) := by
  have : systemList (List.replicate n .mismatch ++ .ok l :: r) = some (some l) := by
    induction n with
    | zero => rfl
    | succ n ih => rw [List.replicate_succ, List.cons_append]; exact ih
  unfold processList
  rw [this]
  dsimp only
  rw [if_neg h]

/-- A case of C72_list: one run, after entries of another process. -/
example : findList 100 9 [⟨7, 4⟩, ⟨100, 8⟩, ⟨100, 12⟩, ⟨8, 4⟩] = some [⟨100, 8⟩, ⟨100, 12⟩] := by
  decide +kernel

/-! ## Runs -/

/-- A whole system call, or a close from another process. -/
inductive Item where
  | call (t : Nat) (c : Call) (r : Res)
  | ext (k : Key)

/-- What is asked of the kernel, as a test. -/
def asked (y : Sys) (c : Call) (r : Res) : Bool :=
  (opens c r).all (fun k => (kclose y c (closes c r)).kern k == none) &&
    (match closes c r with
     | some k => !(y.kern k == none) || !(y.ext k)
     | none => true)

/-- One system call after the other, with the demands on the kernel checked. -/
def seqRun (op : Opts) : Sys → List Item → Option Sys
  | y, [] => some y
  | y, .ext k :: is => (step op y (.ext k)).bind (fun y1 => seqRun op y1 is)
  | y, .call t c r :: is =>
    if asked y c r then
      (step op y (.pre t c)).bind (fun y1 =>
        (step op y1 (.exec t r)).bind (fun y2 =>
          (step op y2 (.post t)).bind (fun y3 => seqRun op y3 is)))
    else none

/-- Nothing is under way. -/
def Still (y : Sys) : Prop := ∀ t, y.flight t = none

theorem not_busy_still (y : Sys) (h : ∀ t', t' ≠ t → y.flight t' = none) (t' : Nat) (e : t' ≠ t)
    (k : Key) : ¬ busy y t' k := by
  unfold busy
  rw [h t' e]
  exact fun h => h

theorem seqRun_calm (op : Opts) (is : List Item) : ∀ (y y2 : Sys), Inv y → Still y →
    seqRun op y is = some y2 → ∃ es, CalmRun op y es y2 ∧ Still y2 := by
  induction is with
  | nil => intro y y2 _ hst h; cases h; exact ⟨[], .nil y, hst⟩
  | cons i is ih =>
    intro y y2 hi hst h
    cases i with
    | ext k =>
      obtain ⟨y1, h1, h2⟩ := step_ok op y (.ext k) hi trivial
      unfold seqRun at h
      rw [h1] at h
      have hst1 : Still y1 := by cases h1; exact hst
      obtain ⟨es, h3, h4⟩ := ih y1 y2 h2 hst1 h
      exact ⟨.ext k :: es, .cons trivial trivial h1 h3, h4⟩
    | call t c r =>
      unfold seqRun at h
      by_cases hchk : asked y c r = true
      · rw [if_pos hchk] at h
        unfold asked at hchk
        rw [Bool.and_eq_true] at hchk
        have en1 : enabled y (.pre t c) := hst t
        have cl1 : calm y (.pre t c) := by
          intro d _ _ t' hb
          unfold busy at hb
          rw [hst t'] at hb
          exact hb
        obtain ⟨y1, s1, i1⟩ := step_ok op y (.pre t c) hi en1
        have f1 : y1.flight = upd y.flight t (some (c, none)) ∧ y1.kern = y.kern ∧ y1.ext = y.ext ∧ y1.hist = y.hist := by
          unfold step at s1
          dsimp only at s1
          cases hp : preCall t c y.tool with
          | none => rw [hp] at s1; cases s1
          | some st => rw [hp] at s1; cases s1; exact ⟨rfl, rfl, rfl, rfl⟩
        have ft : y1.flight t = some (c, none) := by rw [f1.1]; unfold upd; rw [if_pos rfl]
        have fo : ∀ t', t' ≠ t → y1.flight t' = none := by
          intro t' e; rw [f1.1]; unfold upd; rw [if_neg e]; exact hst t'
        have kk : ∀ k, (kclose y1 c (closes c r)).kern k = (kclose y c (closes c r)).kern k := by
          intro k
          cases closes c r with
          | none => exact congrFun f1.2.1 k
          | some k0 =>
            show upd y1.kern k0 none k = upd y.kern k0 none k
            rw [f1.2.1]
        have en2 : enabled y1 (.exec t r) := by
          refine ⟨c, ft, fun k hk => ?_⟩
          rw [kk k]
          have := List.all_eq_true.mp hchk.1 k hk
          simpa using this
        have cl2 : calm y1 (.exec t r) := by
          intro c' hc'
          rw [ft] at hc'
          cases hc'
          refine ⟨fun k _ t' e => not_busy_still y1 fo t' e k, fun k hk hkn => ?_⟩
          have := hchk.2
          rw [hk] at this
          dsimp only at this
          rw [f1.2.1] at hkn
          rw [f1.2.2.1]
          rw [hkn] at this
          simpa using this
        obtain ⟨y2', s2, i2⟩ := step_ok op y1 (.exec t r) i1 en2
        have f2 : y2'.flight = upd y1.flight t (some (c, some r)) := by
          unfold step at s2
          dsimp only at s2
          rw [ft] at s2
          cases s2
          dsimp only
          rw [(kopen_tool c (opens c r) (kclose y1 c (closes c r))).2.1, (kclose_tool y1 c _).2.1]
        have ft2 : y2'.flight t = some (c, some r) := by rw [f2]; unfold upd; rw [if_pos rfl]
        obtain ⟨y3, s3, i3⟩ := step_ok op y2' (.post t) i2 ⟨c, r, ft2⟩
        have f3 : Still y3 := by
          unfold step at s3
          dsimp only at s3
          rw [ft2] at s3
          dsimp only at s3
          cases hp : postCall op t c r y2'.tool with
          | none => rw [hp] at s3; cases s3
          | some st =>
            rw [hp] at s3
            cases s3
            intro t'
            dsimp only
            unfold upd
            by_cases e : t' = t
            · rw [if_pos e]
            · rw [if_neg e, f2]
              unfold upd
              rw [if_neg e]
              exact fo t' e
        rw [s1, Option.bind_some, s2, Option.bind_some, s3, Option.bind_some] at h
        obtain ⟨es, h3, h4⟩ := ih y3 y2 i3 f3 h
        exact ⟨_, .cons en1 cl1 s1 (.cons en2 cl2 s2 (.cons (e := .post t) ⟨c, r, ft2⟩ trivial s3 h3)), h4⟩
      · rw [if_neg hchk] at h; cases h

/-- The reports of a run of whole system calls. -/
def reportsOf (op : Opts) (is : List Item) (list : Option (List Nat)) : Option (List Report) :=
  (seqRun op Sys.init is).map (fun y => iterate op list y.tool)

theorem reportsOf_run (op : Opts) (is : List Item) (list : Option (List Nat)) (rs : List Report)
    (h : reportsOf op is list = some rs) :
    ∃ es y, CalmRun op Sys.init es y ∧ Still y ∧ iterate op list y.tool = rs := by
  unfold reportsOf at h
  cases hq : seqRun op Sys.init is with
  | none => rw [hq] at h; cases h
  | some y =>
    rw [hq] at h
    cases h
    obtain ⟨es, h1, h2⟩ := seqRun_calm op is _ _ inv_init (fun _ => rfl) hq
    exact ⟨es, y, h1, h2, rfl⟩

theorem seqRun_facts {α : Type} (op : Opts) (is : List Item) (f : Sys → α) (v : α)
    (h : (seqRun op Sys.init is).map f = some v) :
    ∃ es y, CalmRun op Sys.init es y ∧ Still y ∧ f y = v := by
  cases hq : seqRun op Sys.init is with
  | none => rw [hq] at h; cases h
  | some y =>
    rw [hq] at h
    obtain ⟨es, h1, h2⟩ := seqRun_calm op is _ _ inv_init (fun _ => rfl) hq
    exact ⟨es, y, h1, h2, Option.some.inj h⟩

theorem still_not_busy (y : Sys) (h : Still y) (k : Key) (t : Nat) : ¬ busy y t k := by
  unfold busy
  rw [h t]
  exact fun h => h

/-- NtClose of a kernel handle from callstack `s`. -/
def closeCall (h s : Nat) : Call :=
  { dele := some { own := true, key := (.kernel, h), forced := false }, creates := false, stack := s }

/-- A call from callstack `s` that opens kernel handles. -/
def openCall (s : Nat) : Call := { dele := none, creates := true, stack := s }

/-- NtDuplicateObject with DUPLICATE_CLOSE_SOURCE from callstack `s`. -/
def dupCall (h s : Nat) : Call :=
  { dele := some { own := true, key := (.kernel, h), forced := true }, creates := true, stack := s }

/-- The answer with one new kernel handle. -/
def gives (h : Nat) : Res := { succ := true, outs := [.handle true (.kernel, h)] }

/-- The answer without a handle. -/
def ok : Res := { succ := true, outs := [] }

/-- A case of C72_reported, C72_similar, C72_level and C72_pairs: callstack 1 opens three handles,
callstack 2 closes one, callstack 3 opens one more. -/
example : ∃ es y, CalmRun { filter := true, threshold := 2 } Sys.init es y ∧ Still y ∧
    iterate { filter := true, threshold := 2 } (some [4, 8, 12, 16]) y.tool =
      [.leak (.kernel, 8) 1 1 (some 2) true, .leak (.kernel, 12) 1 1 (some 2) true,
       .leak (.kernel, 16) 0 3 none true] := by
  apply reportsOf_run _ [.call 0 (openCall 1) (gives 4), .call 0 (openCall 1) (gives 8),
    .call 1 (openCall 1) (gives 12), .call 1 (closeCall 4 2) ok, .call 1 (openCall 3) (gives 16)]
  decide +kernel

/-- C72, where the code falls short: the number of similar handles counts the closes recorded with
the same callstack.  A handle is moved on twice by NtDuplicateObject with DUPLICATE_CLOSE_SOURCE from
one place: one handle is open, and the report says that there are two similar handles and is an
error, though a potential error is what handlecheck.c:535-541 wants for one or two handles. -/
theorem C72_count_close : ∃ es y, CalmRun { filter := true, threshold := 20 } Sys.init es y ∧ Still y ∧
    iterate { filter := true, threshold := 20 } (some [12]) y.tool =
      [.leak (.kernel, 12) 2 1 (some 1) false] ∧ y.kern (.kernel, 12) = some 1 ∧
      ∀ k, y.kern k ≠ none → k = (Ty.kernel, 12) := by
  obtain ⟨es, y, h1, h2, h3⟩ := seqRun_facts { filter := true, threshold := 20 }
      [.call 0 (openCall 7) (gives 4), .call 0 (dupCall 4 1) (gives 8), .call 0 (dupCall 8 1) (gives 12)]
      (fun y => (iterate { filter := true, threshold := 20 } (some [12]) y.tool, y.kern (.kernel, 12), y.tool.ents))
      ([.leak (.kernel, 12) 2 1 (some 1) false], some 1, [((.kernel, 12), 1)]) (by decide +kernel)
  have a1 := congrArg Prod.fst h3
  have a2 := congrArg (fun x => x.2.1) h3
  have a3 := congrArg (fun x => x.2.2) h3
  dsimp only at a1 a2 a3
  refine ⟨es, y, h1, h2, a1, a2, ?_⟩
  intro k hk
  cases hs : y.kern k with
  | none => exact absurd hs hk
  | some s =>
    have := (C72_exact _ es y h1 k (still_not_busy y h2 k) s).1 hs
    rw [a3] at this
    have hm := mem_of_get _ _ _ this
    rw [List.mem_singleton] at hm
    exact congrArg Prod.fst hm

/-- C72, where the code falls short: handles that another process has closed are left out of the
report but are counted as similar handles. -/
theorem C72_count_gone : ∃ es y, CalmRun { filter := true, threshold := 2 } Sys.init es y ∧ Still y ∧
    iterate { filter := true, threshold := 2 } (some [8]) y.tool = [.leak (.kernel, 8) 1 1 none false] ∧
    y.kern (.kernel, 4) = none ∧ Accurate y [8] := by
  obtain ⟨es, y, h1, h2, h3⟩ := seqRun_facts { filter := true, threshold := 2 }
      [.call 0 (openCall 1) (gives 4), .call 0 (openCall 1) (gives 8), .ext (.kernel, 4)]
      (fun y => (iterate { filter := true, threshold := 2 } (some [8]) y.tool,
        [y.kern (.kernel, 4), y.kern (.kernel, 8)], y.tool.ents))
      ([.leak (.kernel, 8) 1 1 none false], [none, some 1], [((.kernel, 8), 1), ((.kernel, 4), 1)])
      (by decide +kernel)
  have a1 := congrArg Prod.fst h3
  have a23 := congrArg (fun x => x.2.1) h3
  have a2 := (List.cons.inj a23).1
  have a3 := (List.cons.inj (List.cons.inj a23).2).1
  have a4 := congrArg (fun x => x.2.2) h3
  dsimp only at a1 a2 a3 a4
  refine ⟨es, y, h1, h2, a1, a2, ?_, ?_⟩
  · intro h hk
    cases hs : y.kern (Ty.kernel, h) with
    | none => exact absurd hs hk
    | some s =>
      have := (C72_exact _ es y h1 _ (still_not_busy y h2 _) s).1 hs
      rw [a4] at this
      have hm := mem_of_get _ _ _ this
      rcases List.mem_cons.mp hm with e | e
      · have := congrArg (fun x => x.1.2) e
        dsimp only at this
        rw [this]; exact List.mem_cons_self
      · rw [List.mem_singleton] at e
        have := congrArg (fun x => x.1.2) e
        dsimp only at this
        rw [this, a2] at hs
        cases hs
  · intro h hm hk
    rw [List.mem_singleton] at hm
    rw [hm, a3] at hk
    cases hk

/-- What a kernel and a thread do, as a test. -/
def enabledB (y : Sys) : Ev → Bool
  | .pre t _ => (y.flight t).isNone
  | .exec t r =>
    match y.flight t with
    | some (c, none) => (opens c r).all (fun k => (kclose y c (closes c r)).kern k == none)
    | _ => false
  | .post t =>
    match y.flight t with
    | some (_, some _) => true
    | _ => false
  | _ => true

theorem enabled_of (y : Sys) (e : Ev) (h : enabledB y e = true) : enabled y e := by
  cases e with
  | pre t c =>
    show y.flight t = none
    simpa [enabledB] using h
  | exec t r =>
    unfold enabledB at h
    dsimp only at h
    cases hf : y.flight t with
    | none => rw [hf] at h; cases h
    | some p =>
      obtain ⟨c, o⟩ := p
      rw [hf] at h
      cases o with
      | some r' => cases h
      | none =>
        refine ⟨c, hf, fun k hk => ?_⟩
        have := List.all_eq_true.mp h k hk
        simpa using this
  | post t =>
    unfold enabledB at h
    dsimp only at h
    cases hf : y.flight t with
    | none => rw [hf] at h; cases h
    | some p =>
      obtain ⟨c, o⟩ := p
      rw [hf] at h
      cases o with
      | some r' => exact ⟨c, r', hf⟩
      | none => cases h
  | ext k => trivial
  | nudge l => trivial

/-- Any events, with the demands checked. -/
def runAll (op : Opts) : Sys → List Ev → Option Sys
  | y, [] => some y
  | y, e :: es => if enabledB y e then (step op y e).bind (fun y1 => runAll op y1 es) else none

theorem run_of_runAll (op : Opts) (es : List Ev) : ∀ y y2, runAll op y es = some y2 → Run op y es y2 := by
  induction es with
  | nil => intro y y2 h; cases h; exact .nil y
  | cons e es ih =>
    intro y y2 h
    unfold runAll at h
    by_cases hb : enabledB y e = true
    · rw [if_pos hb] at h
      cases hs : step op y e with
      | none => rw [hs] at h; cases h
      | some y1 =>
        rw [hs, Option.bind_some] at h
        exact .cons (enabled_of y e hb) hs (ih y1 y2 h)
    · rw [if_neg hb] at h; cases h

/-- The events of two threads that both close handle 4 of the user table: the second close is
carried out by the kernel first, then the first one fails. -/
def twoCloses : List Ev :=
  let cl : Call := { dele := some { own := true, key := (.user, 4), forced := false }, creates := false, stack := 2 }
  [.pre 0 (openCall 1), .exec 0 { succ := true, outs := [.handle true (.user, 4)] }, .post 0,
   .pre 0 cl, .pre 1 cl, .exec 1 ok, .exec 0 { succ := false, outs := [] }, .post 1, .post 0]

/-- C72, where the code falls short: without calm, a failing close puts back a handle that another
thread has closed (syscall_windows.c:504-507, handlecheck.c:795-805).  A closed handle is reported,
and nobody is in a system call any more. -/
theorem C72_two_closes : ∃ y, Run { filter := true, threshold := 2 } Sys.init twoCloses y ∧
    y.flight 0 = none ∧ y.flight 1 = none ∧ y.kern (.user, 4) = none ∧ y.ext (.user, 4) = false ∧
    iterate { filter := true, threshold := 2 } none y.tool = [.leak (.user, 4) 0 1 none true] := by
  have h : (runAll { filter := true, threshold := 2 } Sys.init twoCloses).map (fun y =>
      (((y.flight 0).isNone, (y.flight 1).isNone), (y.kern (.user, 4), y.ext (.user, 4)),
        iterate { filter := true, threshold := 2 } none y.tool)) =
      some ((true, true), (none, false), [.leak (.user, 4) 0 1 none true]) := by decide +kernel
  cases hq : runAll { filter := true, threshold := 2 } Sys.init twoCloses with
  | none => rw [hq] at h; cases h
  | some y =>
    rw [hq] at h
    have h' := Option.some.inj h
    exact ⟨y, run_of_runAll _ _ _ _ hq, Option.isNone_iff_eq_none.mp (congrArg (fun x => x.1.1) h'),
      Option.isNone_iff_eq_none.mp (congrArg (fun x => x.1.2) h'),
      congrArg (fun x => x.2.1.1) h', congrArg (fun x => x.2.1.2) h', congrArg (fun x => x.2.2) h'⟩

/-- The events of a nudge that comes while a close is under way that fails. -/
def nudgeInClose : List Ev :=
  [.pre 0 (openCall 1), .exec 0 (gives 4), .post 0, .pre 0 (closeCall 4 2)]

/-- C72, where the code falls short: during a close the handle is in no table, so that a report that
comes before the kernel has carried it out leaves out an open handle. -/
theorem C72_nudge_in_close : ∃ y, Run { filter := true, threshold := 2 } Sys.init nudgeInClose y ∧
    y.kern (.kernel, 4) = some 1 ∧ iterate { filter := true, threshold := 2 } (some [4]) y.tool = [] := by
  have h : (runAll { filter := true, threshold := 2 } Sys.init nudgeInClose).map (fun y =>
      (y.kern (.kernel, 4), iterate { filter := true, threshold := 2 } (some [4]) y.tool)) =
      some (some 1, []) := by decide +kernel
  cases hq : runAll { filter := true, threshold := 2 } Sys.init nudgeInClose with
  | none => rw [hq] at h; cases h
  | some y =>
    rw [hq] at h
    have h' := Option.some.inj h
    exact ⟨y, run_of_runAll _ _ _ _ hq, congrArg (fun x => x.1) h', congrArg (fun x => x.2) h'⟩

end Verif.HandleCheck
