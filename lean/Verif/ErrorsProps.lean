import Mathlib.Data.List.Induction
import Verif.Errors

/-!
# C42: duplicate errors are counted, not reported again
-/
namespace Verif.Er

variable {K : Type} [DecidableEq K]

/-! ## Specification -/

/-- Same type and same callstack. -/
def same (a b : Ev K) : Bool := a.typ = b.typ && a.key = b.key

/-- The events that are the first of their kind, in order. -/
def firsts (h : List (Ev K)) : List (Ev K) :=
  h.foldl (fun acc e => if acc.any (same · e) then acc else acc ++ [e]) []

/-- Not suppressed, and a potential error or not. -/
def inSet (b : Bool) (f : Ev K) : Bool := f.supp.isNone && f.fp == b

/-- The numbers given to errors: consecutive within each of the two sets. -/
def number (l : List (Ev K)) : List (Ev K × Nat) :=
  l.foldl (fun acc f =>
    acc ++ [(f, if f.supp.isSome then 0 else acc.countP (fun p => inSet f.fp p.1) + 1)]) []

/-- How many different unsuppressed errors there are. -/
def shown (h : List (Ev K)) : Nat := (firsts h).countP (·.supp.isNone)

/-- How often the kind of `f` occurs. -/
def occ (h : List (Ev K)) (f : Ev K) : Nat := h.countP (same f)

/-- How many occurrences are of a kind whose first event satisfies `P`. -/
def occOf (h : List (Ev K)) (P : Ev K → Bool) : Nat :=
  h.countP fun e => (firsts h).any fun f => same f e && P f

/-- What happened: the events that were looked at, the module-wide suppressions that applied to the
others, and how many were beyond the limit. -/
structure Hist (K : Type) where
  h : List (Ev K) := []
  w : List (Nat × Bool) := []
  thr : Nat := 0

/-- One event under a limit on the number of different errors. -/
def Hist.step (max : Int) (H : Hist K) (e : Ev K) : Hist K :=
  if 0 ≤ max ∧ max.toNat ≤ shown H.h then { H with thr := H.thr + 1 }
  else if e.wild ≠ [] then { H with w := H.w ++ e.wild }
  else { H with h := H.h ++ [e] }

/-- A sequence of events. -/
def hist (max : Int) (es : List (Ev K)) : Hist K := es.foldl (Hist.step max) {}

/-- A sequence of calls of `report_error`. -/
def errors (o : Opts) (es : List (Ev K)) : St K := es.foldl (reportError o) {}

/-! ## Lists -/

theorem firsts_snoc (h : List (Ev K)) (e : Ev K) :
    firsts (h ++ [e]) = if (firsts h).any (same · e) then firsts h else firsts h ++ [e] := by
  simp [firsts]

omit [DecidableEq K] in
theorem number_snoc (l : List (Ev K)) (f : Ev K) :
    number (l ++ [f]) = number l ++
      [(f, if f.supp.isSome then 0 else (number l).countP (fun p => inSet f.fp p.1) + 1)] := by
  simp [number]

omit [DecidableEq K] in
theorem number_fst (l : List (Ev K)) : (number l).map Prod.fst = l := by
  induction l using List.reverseRecOn with
  | nil => rfl
  | append_singleton l f ih => rw [number_snoc]; simp [ih]

omit [DecidableEq K] in
theorem number_count (l : List (Ev K)) (P : Ev K → Bool) :
    (number l).countP (fun p => P p.1) = l.countP P := by
  have := number_fst l
  conv => rhs; rw [← this]
  rw [List.countP_map]; rfl

theorem same_iff {a b : Ev K} : same a b = true ↔ a.typ = b.typ ∧ a.key = b.key := by
  simp [same]

theorem Err.is_iff {e : Err K} {t : Nat} {k : K} : e.is t k = true ↔ e.typ = t ∧ e.key = k := by
  simp [Err.is]

theorem firsts_rep (h : List (Ev K)) : ∀ e ∈ h, ∃ f ∈ firsts h, same f e = true := by
  induction h using List.reverseRecOn with
  | nil => intro e he; cases he
  | append_singleton h x ih =>
    intro e he
    rw [firsts_snoc]
    rcases List.mem_append.1 he with he | he
    · obtain ⟨f, hf, hs⟩ := ih e he
      refine ⟨f, ?_, hs⟩
      split
      · exact hf
      · exact List.mem_append_left _ hf
    · have : e = x := by simpa using he
      subst this
      split
      · rename_i hany
        obtain ⟨f, hf, hs⟩ := List.any_eq_true.1 hany
        exact ⟨f, hf, hs⟩
      · exact ⟨e, by simp, by simp [same]⟩

theorem firsts_sub (h : List (Ev K)) : ∀ f ∈ firsts h, f ∈ h := by
  induction h using List.reverseRecOn with
  | nil => intro e he; cases he
  | append_singleton h x ih =>
    intro e he
    rw [firsts_snoc] at he
    split at he
    · exact List.mem_append_left _ (ih e he)
    · rcases List.mem_append.1 he with he | he
      · exact List.mem_append_left _ (ih e he)
      · exact List.mem_append_right _ he

theorem firsts_apart (h : List (Ev K)) : (firsts h).Pairwise (fun a b => same a b = false) := by
  induction h using List.reverseRecOn with
  | nil => exact List.Pairwise.nil
  | append_singleton h x ih =>
    rw [firsts_snoc]
    split
    · exact ih
    · rename_i hany
      rw [List.pairwise_append]
      refine ⟨ih, List.pairwise_singleton _ _, fun a ha b hb => ?_⟩
      have : b = x := by simpa using hb
      subst this
      cases hs : same a b with
      | false => rfl
      | true => exact absurd (List.any_eq_true.2 ⟨a, ha, hs⟩) hany

theorem firsts_len (h : List (Ev K)) : (firsts h).length ≤ h.length := by
  induction h using List.reverseRecOn with
  | nil => exact Nat.le_refl _
  | append_singleton h x ih =>
    rw [firsts_snoc]; split <;> simp <;> omega

/-- Two numbered first events of the same kind are the same. -/
theorem number_inj (h : List (Ev K)) : ∀ p ∈ number (firsts h), ∀ q ∈ number (firsts h),
    same p.1 q.1 = true → p = q := by
  have hp : ((number (firsts h)).map Prod.fst).Pairwise (fun a b => same a b = false) := by
    rw [number_fst]; exact firsts_apart h
  generalize number (firsts h) = l at hp
  induction l with
  | nil => intro p hp'; cases hp'
  | cons a l ih =>
    rw [List.map_cons, List.pairwise_cons] at hp
    intro p hpm q hqm hs
    rcases List.mem_cons.1 hpm with h1 | h1 <;> rcases List.mem_cons.1 hqm with h2 | h2
    · rw [h1, h2]
    · have := hp.1 q.1 (List.mem_map_of_mem h2)
      rw [h1] at hs; rw [hs] at this; cases this
    · have := hp.1 p.1 (List.mem_map_of_mem h1)
      rw [h2] at hs
      have h3 : same a.1 p.1 = true := by
        rw [same_iff] at hs ⊢; exact ⟨hs.1.symm, hs.2.symm⟩
      rw [h3] at this; cases this
    · exact ih hp.2 p h1 q h2 hs

/-! ## Counters -/

theorem ofNat_succ (n : Nat) : BitVec.ofNat 32 n + 1 = BitVec.ofNat 32 (n + 1) := by
  rw [BitVec.ofNat_add]; rfl

theorem U32.add_neg (x : U32) : x + 1 + -1 = x := by
  rw [BitVec.add_assoc]
  have : (1 : U32) + -1 = 0 := by decide
  rw [this]; exact BitVec.add_zero x


theorem any_first {h : List (Ev K)} {f e : Ev K} (hf : f ∈ firsts h) (hs : same f e = true)
    (P : Ev K → Bool) : ((firsts h).any fun x => same x e && P x) = P f := by
  have hp := firsts_apart h
  cases hP : P f with
  | true => exact List.any_eq_true.2 ⟨f, hf, by simp [hs, hP]⟩
  | false =>
    rw [List.any_eq_false]
    intro x hx hc
    rw [Bool.and_eq_true] at hc
    have hn : ∃ n, (x, n) ∈ number (firsts h) := by
      rw [← number_fst (firsts h)] at hx
      obtain ⟨q, hq, rfl⟩ := List.mem_map.1 hx; exact ⟨q.2, hq⟩
    have hm : ∃ n, (f, n) ∈ number (firsts h) := by
      rw [← number_fst (firsts h)] at hf
      obtain ⟨q, hq, rfl⟩ := List.mem_map.1 hf; exact ⟨q.2, hq⟩
    obtain ⟨n, hn⟩ := hn
    obtain ⟨m, hm⟩ := hm
    have : same x f = true := by
      rw [same_iff] at hs ⊢
      have := same_iff.1 hc.1
      exact ⟨this.1.trans hs.1.symm, this.2.trans hs.2.symm⟩
    have := number_inj h _ hn _ hm this
    have : x = f := congrArg Prod.fst this
    rw [this, hP] at hc
    cases hc.2

theorem occOf_old {h : List (Ev K)} {f e : Ev K} (hf : f ∈ firsts h) (hs : same f e = true)
    (P : Ev K → Bool) : occOf (h ++ [e]) P = occOf h P + (if P f then 1 else 0) := by
  have hfe : firsts (h ++ [e]) = firsts h := by
    rw [firsts_snoc, if_pos (List.any_eq_true.2 ⟨f, hf, hs⟩)]
  unfold occOf
  rw [hfe, List.countP_append, List.countP_singleton, any_first hf hs]

theorem occOf_new {h : List (Ev K)} {e : Ev K} (hn : (firsts h).any (same · e) = false)
    (P : Ev K → Bool) : occOf (h ++ [e]) P = occOf h P + (if P e then 1 else 0) := by
  have hfe : firsts (h ++ [e]) = firsts h ++ [e] := by
    rw [firsts_snoc, hn]; rfl
  unfold occOf
  rw [hfe, List.countP_append, List.countP_singleton]
  congr 1
  · apply List.countP_congr
    intro x hx
    rw [List.any_append]
    obtain ⟨g, hg, hgx⟩ := firsts_rep h x hx
    have hex : same e x = false := by
      cases hc : same e x with
      | false => rfl
      | true =>
        have h1 : same g e = true := by
          rw [same_iff] at hgx hc ⊢
          exact ⟨hgx.1.trans hc.1.symm, hgx.2.trans hc.2.symm⟩
        rw [List.any_eq_false] at hn
        exact absurd h1 (hn g hg)
    simp [hex]
  · rw [List.any_append]
    have h1 : ((firsts h).any fun f => same f e && P f) = false := by
      rw [List.any_eq_false] at hn ⊢
      intro x hx hc
      rw [Bool.and_eq_true] at hc
      exact hn x hx hc.1
    rw [h1]
    simp [same]

/-! ## The invariant -/

/-- The table entry of a kind of errors. -/
def entry (h : List (Ev K)) (p : Ev K × Nat) : Err K :=
  { typ := p.1.typ, key := p.1.key, id := BitVec.ofNat 32 p.2, count := BitVec.ofNat 32 (occ h p.1)
    supp := p.1.supp, potential := p.1.supp.isNone && p.1.fp }

/-- The report of a kind of errors. -/
def report (p : Ev K × Nat) : Report K := ⟨p.1.typ, p.1.key, BitVec.ofNat 32 p.2, p.1.fp⟩

/-- What the state says about what happened. -/
structure Inv (o : Opts) (s : St K) (H : Hist K) : Prop where
  tbl : s.tbl = (number (firsts H.h)).map (entry H.h)
  errorId : s.errorId = BitVec.ofNat 32 ((firsts H.h).countP (inSet false))
  errorIdPot : s.errorIdPot = BitVec.ofNat 32 ((firsts H.h).countP (inSet true))
  uniq : ∀ b t, s.uniq b t = BitVec.ofNat 32 ((firsts H.h).countP fun f => inSet b f && f.typ = t)
  total : ∀ b t, s.total b t = BitVec.ofNat 32 (occOf H.h fun f => inSet b f && f.typ = t)
  reported : ∀ b, s.reported b = BitVec.ofNat 32 ((firsts H.h).countP (inSet b))
  matched : ∀ b, s.matched b = BitVec.ofNat 32
    (H.w.countP (fun p => p.2 = b) + occOf H.h fun f => f.supp.any fun p => p.2 = b)
  used : ∀ i, s.used i = BitVec.ofNat 32
    (H.w.countP (fun p => p.1 = i) + occOf H.h fun f => f.supp.any fun p => p.1 = i)
  throttled : s.throttled = BitVec.ofNat 32 H.thr
  out : o.showDuplicates = false →
    s.out = ((number (firsts H.h)).filter (fun p => p.1.supp.isNone)).map report

theorem init_inv (o : Opts) : Inv o ({} : St K) {} where
  tbl := rfl
  errorId := rfl
  errorIdPot := rfl
  uniq := fun _ _ => rfl
  total := fun _ _ => rfl
  reported := fun _ => rfl
  matched := fun _ => rfl
  used := fun _ => rfl
  throttled := rfl
  out := fun _ => rfl

omit [DecidableEq K] in
theorem wild_spec (l : List (Nat × Bool)) (s : St K) :
    l.foldl wildMatch s = { s with
      matched := fun b => s.matched b + BitVec.ofNat 32 (l.countP fun p => p.2 = b)
      used := fun i => s.used i + BitVec.ofNat 32 (l.countP fun p => p.1 = i) } := by
  induction l generalizing s with
  | nil =>
    simp only [List.foldl_nil, List.countP_nil]
    have : ∀ x : U32, x + BitVec.ofNat 32 0 = x := fun x => BitVec.add_zero x
    simp only [this]
  | cons a l ih =>
    rw [List.foldl_cons, ih]
    unfold wildMatch bump
    congr 1
    · funext b
      dsimp only
      by_cases h : a.2 = b
      · rw [List.countP_cons_of_pos (by simpa using h), if_pos h.symm, ← ofNat_succ,
          BitVec.add_assoc, BitVec.add_comm 1]
      · rw [List.countP_cons_of_neg (by simpa using h), if_neg (fun hc => h hc.symm)]
    · funext b
      dsimp only
      by_cases h : a.1 = b
      · rw [List.countP_cons_of_pos (by simpa using h), if_pos h.symm, ← ofNat_succ,
          BitVec.add_assoc, BitVec.add_comm 1]
      · rw [List.countP_cons_of_neg (by simpa using h), if_neg (fun hc => h hc.symm)]

theorem shown_eq (h : List (Ev K)) :
    shown h = (firsts h).countP (inSet false) + (firsts h).countP (inSet true) := by
  unfold shown
  induction firsts h with
  | nil => rfl
  | cons a l ih =>
    simp only [List.countP_cons, ih, inSet]
    rcases a with ⟨_, _, _, sp, fp⟩
    cases sp <;> cases fp <;> simp <;> omega

theorem occ_pos {h : List (Ev K)} {f : Ev K} (hf : f ∈ firsts h) : 1 ≤ occ h f := by
  apply List.countP_pos_iff.2
  exact ⟨f, firsts_sub h f hf, by simp [same]⟩

theorem occ_le (h : List (Ev K)) (f : Ev K) : occ h f ≤ h.length := List.countP_le_length

theorem put_last (s : St K) (l : List (Err K)) (x e : Err K) (hs : s.tbl = l ++ [x])
    (hl : ∀ y ∈ l, y.is e.typ e.key = false) (hx : x.is e.typ e.key = true) :
    (s.put e).tbl = l ++ [e] := by
  unfold St.put
  simp only [hs, List.map_append, List.map_cons, List.map_nil, hx, if_true]
  congr 1
  conv => rhs; rw [← List.map_id l]
  apply List.map_congr_left
  intro y hy
  rw [hl y hy]; rfl


/-- The step for an event of a known kind. -/
theorem old_inv {o : Opts} {s : St K} {H : Hist K} (hi : Inv o s H) {e f : Ev K}
    (hf : f ∈ firsts H.h) (hs : same f e = true) (hlen : H.h.length + 1 < 2 ^ 32) :
    let r := record s e.typ e.key
    Inv o (match r.2.supp with
        | some p => { r.1 with used := bump r.1.used p.1 1, matched := bump r.1.matched p.2 1 }
        | none => r.1) { H with h := H.h ++ [e] } ∧
      r.2.count > 1 ∧ r.1.out = s.out ∧
      ∃ n, (f, n) ∈ number (firsts H.h) ∧ r.2 = entry (H.h ++ [e]) (f, n) := by
  obtain ⟨n, hp⟩ : ∃ n, (f, n) ∈ number (firsts H.h) := by
    rw [← number_fst (firsts H.h)] at hf
    obtain ⟨q, hq, rfl⟩ := List.mem_map.1 hf; exact ⟨q.2, hq⟩
  have hf' : f ∈ firsts H.h := hf
  obtain ⟨hty, hky⟩ := same_iff.1 hs
  have hfe : firsts (H.h ++ [e]) = firsts H.h := by
    rw [firsts_snoc, if_pos (List.any_eq_true.2 ⟨f, hf, hs⟩)]
  have hfind : s.find e.typ e.key = some (entry H.h (f, n)) := by
    unfold St.find
    cases hx : s.tbl.find? (·.is e.typ e.key) with
    | none =>
      rw [List.find?_eq_none] at hx
      refine absurd ?_ (hx (entry H.h (f, n)) (by rw [hi.tbl]; exact List.mem_map_of_mem hp))
      simp [Err.is, entry, hty, hky]
    | some x =>
      have h1 := List.find?_some hx
      have h2 := List.mem_of_find?_eq_some hx
      rw [hi.tbl] at h2
      obtain ⟨q, hq, rfl⟩ := List.mem_map.1 h2
      have h3 : same q.1 f = true := by
        have h1 := Err.is_iff.1 h1
        rw [same_iff]; exact ⟨h1.1.trans hty.symm, h1.2.trans hky.symm⟩
      rw [number_inj H.h q hq _ hp h3]
  have hocc : occ (H.h ++ [e]) f = occ H.h f + 1 := by
    unfold occ; rw [List.countP_append, List.countP_singleton, if_pos hs]
  have hent : ({ entry H.h (f, n) with count := (entry H.h (f, n)).count + 1 } : Err K)
      = entry (H.h ++ [e]) (f, n) := by
    unfold entry; rw [hocc, ← ofNat_succ]
  have hput : (s.put (entry (H.h ++ [e]) (f, n))).tbl
      = (number (firsts (H.h ++ [e]))).map (entry (H.h ++ [e])) := by
    unfold St.put
    simp only []
    rw [hi.tbl, hfe, List.map_map]
    apply List.map_congr_left
    intro q hq
    simp only [Function.comp]
    by_cases hc : same q.1 f = true
    · rw [number_inj H.h q hq _ hp hc, if_pos (by simp [Err.is, entry])]
    · rw [if_neg]
      · unfold entry
        have : occ (H.h ++ [e]) q.1 = occ H.h q.1 := by
          unfold occ
          rw [List.countP_append, List.countP_singleton, if_neg]; rfl
          intro hqe
          apply hc
          rw [same_iff] at hqe ⊢
          exact ⟨hqe.1.trans hty.symm, hqe.2.trans hky.symm⟩
        rw [this]
      · intro hx
        apply hc
        exact same_iff.2 (Err.is_iff.1 hx)
  have hcount : (entry (H.h ++ [e]) (f, n)).count > 1 := by
    have h1 := occ_pos hf'
    have h2 := occ_le H.h f
    unfold entry
    rw [hocc]
    show (1 : U32).toNat < (BitVec.ofNat 32 (occ H.h f + 1)).toNat
    rw [BitVec.toNat_ofNat, Nat.mod_eq_of_lt (by omega)]
    show 1 < _
    omega
  have hrec : record s e.typ e.key =
      (if f.supp.isNone then
        { s.put (entry (H.h ++ [e]) (f, n)) with
          total := bump2 s.total (f.supp.isNone && f.fp) e.typ 1 }
       else s.put (entry (H.h ++ [e]) (f, n)), entry (H.h ++ [e]) (f, n)) := by
    unfold record
    rw [hfind]
    simp only []
    rw [hent]
    rfl
  intro r
  have hr : r = record s e.typ e.key := rfl
  rw [hrec] at hr
  rw [hr]
  refine ⟨?_, hcount, ?_, n, hp, rfl⟩
  swap
  · simp only []; split <;> rfl
  cases hsp : f.supp with
  | some p =>
    have hes : (entry (H.h ++ [e]) (f, n)).supp = some p := hsp
    simp only [hes, Option.isNone_some, Bool.false_eq_true, if_false]
    exact {
      tbl := hput
      errorId := by rw [hfe]; exact hi.errorId
      errorIdPot := by rw [hfe]; exact hi.errorIdPot
      uniq := by rw [hfe]; exact hi.uniq
      total := by
        intro b t
        rw [occOf_old hf' hs, if_neg (by simp [inSet, hsp])]
        exact hi.total b t
      reported := by rw [hfe]; exact hi.reported
      matched := by
        intro b
        rw [occOf_old hf' hs, hsp]
        show (if b = p.2 then s.matched b + 1 else s.matched b) = _
        rw [hi.matched b]
        by_cases hb : p.2 = b
        · rw [if_pos hb.symm, if_pos (by simpa using hb), ofNat_succ, Nat.add_assoc]
        · rw [if_neg (fun h => hb h.symm), if_neg (by simpa using hb)]; rfl
      used := by
        intro b
        rw [occOf_old hf' hs, hsp]
        show (if b = p.1 then s.used b + 1 else s.used b) = _
        rw [hi.used b]
        by_cases hb : p.1 = b
        · rw [if_pos hb.symm, if_pos (by simpa using hb), ofNat_succ, Nat.add_assoc]
        · rw [if_neg (fun h => hb h.symm), if_neg (by simpa using hb)]; rfl
      throttled := hi.throttled
      out := by rw [hfe]; exact hi.out }
  | none =>
    have hes : (entry (H.h ++ [e]) (f, n)).supp = none := hsp
    simp only [hes, Option.isNone_none, if_true, Bool.true_and]
    exact {
      tbl := hput
      errorId := by rw [hfe]; exact hi.errorId
      errorIdPot := by rw [hfe]; exact hi.errorIdPot
      uniq := by rw [hfe]; exact hi.uniq
      total := by
        intro b t
        rw [occOf_old hf' hs]
        show (if b = f.fp ∧ t = e.typ then s.total b t + 1 else s.total b t) = _
        rw [hi.total b t]
        by_cases hb : b = f.fp ∧ t = e.typ
        · rw [if_pos hb, if_pos (by simp [inSet, hsp, hb.1, hb.2, hty]), ofNat_succ]
        · rw [if_neg hb, if_neg]; rfl
          intro hc
          simp only [inSet, hsp, Option.isNone_none, Bool.true_and, Bool.and_eq_true,
            beq_iff_eq, decide_eq_true_eq] at hc
          exact hb ⟨hc.1.symm, hc.2.symm.trans hty⟩
      reported := by rw [hfe]; exact hi.reported
      matched := by
        intro b
        rw [occOf_old hf' hs, hsp]
        exact hi.matched b
      used := by
        intro b
        rw [occOf_old hf' hs, hsp]
        exact hi.used b
      throttled := hi.throttled
      out := by rw [hfe]; exact hi.out }


/-- The step for an event of a new kind. -/
theorem new_inv {o : Opts} {s : St K} {H : Hist K} (hi : Inv o s H) {e : Ev K}
    (hn : (firsts H.h).any (same · e) = false) :
    let r := record s e.typ e.key
    let g := firstError r.1 r.2 e
    Inv o (print g.1 g.2.1 g.2.2) { H with h := H.h ++ [e] } ∧ r.2.count = 1 ∧
      (print g.1 g.2.1 g.2.2).out = s.out ++ (if e.supp.isNone then
        [report (e, (number (firsts H.h)).countP (fun p => inSet e.fp p.1) + 1)] else []) := by
  have hfe : firsts (H.h ++ [e]) = firsts H.h ++ [e] := by rw [firsts_snoc, hn]; rfl
  have hnone : ∀ y ∈ (number (firsts H.h)).map (entry H.h), y.is e.typ e.key = false := by
    intro y hy
    obtain ⟨q, hq, rfl⟩ := List.mem_map.1 hy
    cases hc : (entry H.h q).is e.typ e.key with
    | false => rfl
    | true =>
      have h1 : same q.1 e = true := same_iff.2 (Err.is_iff.1 hc)
      have h2 : q.1 ∈ firsts H.h := by
        rw [← number_fst (firsts H.h)]; exact List.mem_map_of_mem hq
      rw [List.any_eq_false] at hn
      exact absurd h1 (hn q.1 h2)
  have hfind : s.find e.typ e.key = none := by
    unfold St.find
    rw [List.find?_eq_none, hi.tbl]
    intro y hy; rw [hnone y hy]; decide
  have hocc1 : occ (H.h ++ [e]) e = 1 := by
    unfold occ
    rw [List.countP_append, List.countP_singleton, if_pos (by simp [same])]
    have : List.countP (same e) H.h = 0 := by
      rw [List.countP_eq_zero]
      intro x hx hc
      obtain ⟨g, hg, hgx⟩ := firsts_rep H.h x hx
      rw [List.any_eq_false] at hn
      refine hn g hg ?_
      rw [same_iff] at hgx hc ⊢
      exact ⟨hgx.1.trans hc.1.symm, hgx.2.trans hc.2.symm⟩
    omega
  have hold : (number (firsts H.h)).map (entry (H.h ++ [e]))
      = (number (firsts H.h)).map (entry H.h) := by
    apply List.map_congr_left
    intro q hq
    unfold entry
    have : occ (H.h ++ [e]) q.1 = occ H.h q.1 := by
      unfold occ
      rw [List.countP_append, List.countP_singleton, if_neg]; rfl
      intro hqe
      have h2 : q.1 ∈ firsts H.h := by
        rw [← number_fst (firsts H.h)]; exact List.mem_map_of_mem hq
      rw [List.any_eq_false] at hn
      exact hn q.1 h2 hqe
    rw [this]
  -- the numbering of the new entry
  have htbl : ∀ n : Nat, (n = if e.supp.isSome then 0
        else (number (firsts H.h)).countP (fun p => inSet e.fp p.1) + 1) →
      (number (firsts (H.h ++ [e]))).map (entry (H.h ++ [e]))
        = (number (firsts H.h)).map (entry H.h) ++ [entry (H.h ++ [e]) (e, n)] := by
    intro n hnn
    rw [hfe, number_snoc, List.map_append, hold, hnn]; rfl
  let e0 : Err K := { typ := e.typ, key := e.key, count := 1 }
  let s1 : St K := { s with tbl := (number (firsts H.h)).map (entry H.h) ++ [e0],
                            total := bump2 s.total false e.typ 1 }
  have hrec : record s e.typ e.key = (s1, e0) := by
    unfold record
    rw [hfind]
    simp only []
    have hp := put_last ({ s with tbl := s.tbl ++ [({ typ := e.typ, key := e.key } : Err K)] } : St K)
      _ _ e0 rfl (by rw [hi.tbl]; exact hnone) (by simp [Err.is, e0])
    have h0 : ({ typ := e.typ, key := e.key, count := (0 : U32) + 1 } : Err K) = e0 := rfl
    rw [h0]
    have h1 : (St.put ({ s with tbl := s.tbl ++ [({ typ := e.typ, key := e.key } : Err K)] } : St K) e0)
        = { s with tbl := (number (firsts H.h)).map (entry H.h) ++ [e0] } := by
      rw [← hi.tbl]
      rw [show (St.put ({ s with tbl := s.tbl ++ [({ typ := e.typ, key := e.key } : Err K)] } : St K) e0)
        = { s with tbl := (St.put ({ s with tbl := s.tbl ++ [({ typ := e.typ, key := e.key } : Err K)] } : St K) e0).tbl } from rfl, hp]
    rw [h1]
    rfl
  -- writing the entry back
  have hput : ∀ (s' : St K) (x : Err K), s'.tbl = s1.tbl → x.typ = e.typ → x.key = e.key →
      (s'.put x).tbl = (number (firsts H.h)).map (entry H.h) ++ [x] := by
    intro s' x hs' ht hk
    apply put_last s' _ e0 x hs'
    · rw [ht, hk]; exact hnone
    · simp [Err.is, e0, ht, hk]
  have hcp : ∀ P : Ev K → Bool, (firsts (H.h ++ [e])).countP P
      = (firsts H.h).countP P + (if P e then 1 else 0) := by
    intro P; rw [hfe, List.countP_append, List.countP_singleton]
  intro r g
  have hr : r = (s1, e0) := hrec
  have hg : g = firstError s1 e0 e := by show firstError r.1 r.2 e = _; rw [hr]
  refine ⟨?_, by rw [hr], ?_⟩
  swap
  · rw [hg]
    unfold firstError
    have hnum := number_count (firsts H.h) (inSet e.fp)
    cases hsp : e.supp with
    | some p =>
      simp only [print, Bool.false_eq_true, if_false, Option.isNone_some, List.append_nil]
      rfl
    | none =>
      simp only [Option.isNone_none, if_true]
      cases hfp : e.fp with
      | true =>
        simp only [if_true, print, acquire]
        show s.out ++ _ = _
        congr 2
        simp only [report, hfp]
        rw [← hfp, hnum, hfp, ← ofNat_succ, ← hi.errorIdPot]
      | false =>
        simp only [Bool.false_eq_true, if_false, if_true, print, acquire, e0]
        show s.out ++ _ = _
        congr 2
        simp only [report, hfp]
        rw [← hfp, hnum, hfp, ← ofNat_succ, ← hi.errorId]
  rw [hg]
  unfold firstError
  cases hsp : e.supp with
  | some p =>
    simp only [print, Bool.false_eq_true, if_false]
    exact {
      tbl := by
        refine Eq.trans (hput _ _ ?_ ?_ ?_) ?_
        · rfl
        · rfl
        · rfl
        rw [htbl 0 (by simp [hsp])]
        congr 2
        unfold entry; rw [hocc1]
        simp [e0, hsp]
      errorId := by rw [hcp, if_neg (by simp [inSet, hsp])]; exact hi.errorId
      errorIdPot := by rw [hcp, if_neg (by simp [inSet, hsp])]; exact hi.errorIdPot
      uniq := by
        intro b t
        rw [hcp, if_neg (by simp [inSet, hsp])]; exact hi.uniq b t
      total := by
        intro b t
        rw [occOf_new hn, if_neg (by simp [inSet, hsp])]
        show bump2 (bump2 s.total false e.typ 1) false e.typ (-1) b t = _
        unfold bump2
        rw [Nat.add_zero, ← hi.total b t]
        by_cases hb : b = false ∧ t = e.typ
        · rw [if_pos hb, if_pos hb, U32.add_neg]
        · rw [if_neg hb, if_neg hb]
      reported := by
        intro b
        rw [hcp, if_neg (by simp [inSet, hsp])]; exact hi.reported b
      matched := by
        intro b
        rw [occOf_new hn, hsp]
        show (if b = p.2 then s.matched b + 1 else s.matched b) = _
        rw [hi.matched b]
        by_cases hb : p.2 = b
        · rw [if_pos hb.symm, if_pos (by simpa using hb), ofNat_succ, Nat.add_assoc]
        · rw [if_neg (fun h => hb h.symm), if_neg (by simpa using hb)]; rfl
      used := by
        intro b
        rw [occOf_new hn, hsp]
        show (if b = p.1 then s.used b + 1 else s.used b) = _
        rw [hi.used b]
        by_cases hb : p.1 = b
        · rw [if_pos hb.symm, if_pos (by simpa using hb), ofNat_succ, Nat.add_assoc]
        · rw [if_neg (fun h => hb h.symm), if_neg (by simpa using hb)]; rfl
      throttled := hi.throttled
      out := by
        intro ho
        rw [hfe, number_snoc, List.filter_append, List.map_append]
        simp only [List.filter_cons, hsp, Option.isNone_some, Bool.false_eq_true, if_false,
          List.filter_nil, List.map_nil, List.append_nil]
        exact hi.out ho }
  | none =>
    have hin : ∀ b, inSet b e = (e.fp == b) := fun b => by simp [inSet, hsp]
    have hin2 : ∀ b t, (inSet b e && decide (e.typ = t)) = (e.fp == b && decide (e.typ = t)) :=
      fun b t => by rw [hin]
    have hnum := number_count (firsts H.h) (inSet e.fp)
    simp only []
    cases hfp : e.fp with
    | true =>
      simp only [if_true, print, acquire]
      exact {
        tbl := by
          show (St.put _ _).tbl = _
          refine Eq.trans (hput _ _ ?_ ?_ ?_) ?_
          · rfl
          · rfl
          · rfl
          rw [htbl ((firsts H.h).countP (inSet true) + 1)
            (by rw [hnum, hfp]; simp [hsp])]
          congr 2
          unfold entry; rw [hocc1]
          simp only [e0, hsp, hfp, Option.isNone_none, Bool.and_self, ← ofNat_succ, s1, hi.errorIdPot]
          rfl
        errorId := by
          rw [hcp, hin, hfp, if_neg (by decide)]; exact hi.errorId
        errorIdPot := by
          rw [hcp, hin, hfp, if_pos (by decide), ← ofNat_succ, ← hi.errorIdPot]; rfl
        uniq := by
          intro b t
          rw [hcp, hin2]
          show bump2 s.uniq true e.typ 1 b t = _
          unfold bump2
          rw [hi.uniq b t]
          by_cases hb : b = true ∧ t = e.typ
          · rw [if_pos hb, if_pos (by simp [hfp, hb.1, hb.2]), ofNat_succ]
          · rw [if_neg hb, if_neg]; rfl
            intro hc
            rw [hfp, Bool.and_eq_true, beq_iff_eq, decide_eq_true_eq] at hc
            exact hb ⟨hc.1.symm, hc.2.symm⟩
        total := by
          intro b t
          rw [occOf_new hn, hin2]
          show bump2 (bump2 (bump2 s.total false e.typ 1) false e.typ (-1)) true e.typ 1 b t = _
          unfold bump2
          rw [hi.total b t]
          by_cases hb : b = true ∧ t = e.typ
          · rw [if_pos hb, if_neg (by rw [hb.1]; simp), if_neg (by rw [hb.1]; simp),
              if_pos (by simp [hfp, hb.1, hb.2]), ofNat_succ]
          · rw [if_neg hb]
            have h0 : ¬ ((e.fp == b && decide (e.typ = t)) = true) := by
              intro hc
              rw [hfp, Bool.and_eq_true, beq_iff_eq, decide_eq_true_eq] at hc
              exact hb ⟨hc.1.symm, hc.2.symm⟩
            rw [if_neg h0, Nat.add_zero]
            by_cases hb' : b = false ∧ t = e.typ
            · rw [if_pos hb', if_pos hb', U32.add_neg]
            · rw [if_neg hb', if_neg hb']
        reported := by
          intro b
          rw [hcp, hin, hfp]
          show (if b = true then s.reported b + 1 else s.reported b) = _
          rw [hi.reported b]
          cases b
          · rfl
          · rw [if_pos rfl, if_pos (by decide), ofNat_succ]
        matched := by
          intro b
          rw [occOf_new hn, hsp]; exact hi.matched b
        used := by
          intro b
          rw [occOf_new hn, hsp]; exact hi.used b
        throttled := hi.throttled
        out := by
          intro ho
          rw [hfe, number_snoc, List.filter_append, List.map_append]
          simp only [List.filter_cons, hsp, Option.isNone_none, if_true, hfp,
            List.filter_nil, List.map_nil, List.map_cons]
          rw [← hi.out ho]
          show s.out ++ _ = _
          congr 2
          simp only [report, hfp]
          rw [if_neg (by decide), ← hfp, hnum, hfp, ← ofNat_succ, ← hi.errorIdPot] }
    | false =>
      simp only [Bool.false_eq_true, if_false, if_true, print, acquire, e0]
      exact {
        tbl := by
          show (St.put _ _).tbl = _
          refine Eq.trans (hput _ _ ?_ ?_ ?_) ?_
          · rfl
          · rfl
          · rfl
          rw [htbl ((firsts H.h).countP (inSet false) + 1)
            (by rw [hnum, hfp]; simp [hsp])]
          congr 2
          unfold entry; rw [hocc1]
          simp only [hsp, hfp, Option.isNone_none, Bool.and_false, ← ofNat_succ, s1, hi.errorId]
          rfl
        errorId := by
          rw [hcp, hin, hfp, if_pos (by decide), ← ofNat_succ, ← hi.errorId]; rfl
        errorIdPot := by
          rw [hcp, hin, hfp, if_neg (by decide)]; exact hi.errorIdPot
        uniq := by
          intro b t
          rw [hcp, hin2]
          show bump2 s.uniq false e.typ 1 b t = _
          unfold bump2
          rw [hi.uniq b t]
          by_cases hb : b = false ∧ t = e.typ
          · rw [if_pos hb, if_pos (by simp [hfp, hb.1, hb.2]), ofNat_succ]
          · rw [if_neg hb, if_neg]; rfl
            intro hc
            rw [hfp, Bool.and_eq_true, beq_iff_eq, decide_eq_true_eq] at hc
            exact hb ⟨hc.1.symm, hc.2.symm⟩
        total := by
          intro b t
          rw [occOf_new hn, hin2]
          show bump2 s.total false e.typ 1 b t = _
          unfold bump2
          rw [hi.total b t]
          by_cases hb : b = false ∧ t = e.typ
          · rw [if_pos hb, if_pos (by simp [hfp, hb.1, hb.2]), ofNat_succ]
          · rw [if_neg hb, if_neg]; rfl
            intro hc
            rw [hfp, Bool.and_eq_true, beq_iff_eq, decide_eq_true_eq] at hc
            exact hb ⟨hc.1.symm, hc.2.symm⟩
        reported := by
          intro b
          rw [hcp, hin, hfp]
          show (if b = false then s.reported b + 1 else s.reported b) = _
          rw [hi.reported b]
          cases b
          · rw [if_pos rfl, if_pos (by decide), ofNat_succ]
          · rfl
        matched := by
          intro b
          rw [occOf_new hn, hsp]; exact hi.matched b
        used := by
          intro b
          rw [occOf_new hn, hsp]; exact hi.used b
        throttled := hi.throttled
        out := by
          intro ho
          rw [hfe, number_snoc, List.filter_append, List.map_append]
          simp only [List.filter_cons, hsp, Option.isNone_none, if_true, hfp,
            List.filter_nil, List.map_nil, List.map_cons]
          rw [← hi.out ho]
          show s.out ++ _ = _
          congr 2
          simp only [report, hfp]
          rw [if_neg (by decide), ← hfp, hnum, hfp, ← ofNat_succ, ← hi.errorId] }


theorem shown_le (h : List (Ev K)) : shown h ≤ h.length :=
  Nat.le_trans List.countP_le_length (firsts_len h)

/-- The throttling test is the one of the specification. -/
theorem throttle_iff {o : Opts} {s : St K} {H : Hist K} (hi : Inv o s H)
    (hlen : H.h.length < 2 ^ 32) :
    (s.reported false + s.reported true).toNat = shown H.h := by
  have h1 := shown_le H.h
  have h2 := shown_eq H.h
  rw [hi.reported, hi.reported, ← BitVec.ofNat_add, ← h2, BitVec.toNat_ofNat,
    Nat.mod_eq_of_lt (by omega)]

theorem print_inv {o : Opts} {s : St K} {H : Hist K} (hi : Inv o s H) (ho : o.showDuplicates = true)
    (x : Err K) (b : Bool) : Inv o (print s x b) H := by
  unfold print
  split
  · exact { hi with out := fun h => by rw [ho] at h; cases h }
  · exact hi

theorem step_inv {o : Opts} {s : St K} {H : Hist K} (hi : Inv o s H) (e : Ev K)
    (hlen : H.h.length + 1 < 2 ^ 32) :
    Inv o (reportError o s e) (H.step o.reportMax e) := by
  unfold reportError Hist.step
  rw [throttle_iff hi (by omega)]
  split
  · exact {
      hi with
      throttled := by
        show s.throttled + 1 = _
        rw [hi.throttled, ofNat_succ] }
  · split
    · rw [wild_spec]
      exact { hi with
        matched := by
          intro b
          show s.matched b + _ = _
          rw [hi.matched b, List.countP_append, ← BitVec.ofNat_add]
          congr 1
          simp only []
          omega
        used := by
          intro b
          show s.used b + _ = _
          rw [hi.used b, List.countP_append, ← BitVec.ofNat_add]
          congr 1
          simp only []
          omega }
    · cases hn : (firsts H.h).any (same · e) with
      | true =>
        obtain ⟨f, hf, hs⟩ := List.any_eq_true.1 hn
        obtain ⟨h1, h2, -⟩ := old_inv hi hf hs hlen
        dsimp only
        rw [if_pos h2]
        cases hsp : (record s e.typ e.key).2.supp with
        | some p =>
          simp only [hsp] at h1 ⊢
          split
          · rename_i ho
            exact print_inv h1 ho _ _
          · exact h1
        | none =>
          simp only [hsp] at h1 ⊢
          split
          · rename_i ho
            exact print_inv h1 ho _ _
          · exact h1
      | false =>
        obtain ⟨h1, h2, -⟩ := new_inv hi hn
        dsimp only
        rw [h2, if_neg (by decide), if_pos rfl]
        exact h1

theorem hist_snoc (max : Int) (es : List (Ev K)) (e : Ev K) :
    hist max (es ++ [e]) = (hist max es).step max e := by simp [hist]

theorem errors_snoc (o : Opts) (es : List (Ev K)) (e : Ev K) :
    errors o (es ++ [e]) = reportError o (errors o es) e := by simp [errors]

theorem hist_len (max : Int) (es : List (Ev K)) :
    (hist max es).h.length + (hist max es).thr ≤ es.length := by
  induction es using List.reverseRecOn with
  | nil => exact Nat.le_refl _
  | append_singleton es e ih =>
    rw [hist_snoc]
    unfold Hist.step
    split
    · simp; omega
    · split
      · simp; omega
      · simp; omega

theorem errors_inv (o : Opts) (es : List (Ev K)) (hlen : es.length < 2 ^ 32) :
    Inv o (errors o es) (hist o.reportMax es) := by
  induction es using List.reverseRecOn with
  | nil => exact init_inv o
  | append_singleton es e ih =>
    rw [hist_snoc, errors_snoc]
    have hl : es.length + 1 < 2 ^ 32 := by simpa using hlen
    refine step_inv (ih (by omega)) e ?_
    have := hist_len o.reportMax es
    omega

/-! ## Theorems -/

/-- C42: the printed reports are exactly one for each unsuppressed kind of error, in the order of
first occurrence, numbered consecutively among the normal and among the potential errors. -/
theorem C42_reports (o : Opts) (es : List (Ev K)) (hlen : es.length < 2 ^ 32)
    (ho : o.showDuplicates = false) :
    (errors o es).out
      = ((number (firsts (hist o.reportMax es).h)).filter fun p => p.1.supp.isNone).map report :=
  (errors_inv o es hlen).out ho

/-- What is printed for one occurrence: the report of its kind, unless that is suppressed. -/
def printed (h : List (Ev K)) (e : Ev K) : Option (Report K) :=
  ((number (firsts h)).find? fun p => same p.1 e).bind fun p =>
    if p.1.supp.isNone then some (report p) else none

/-- Later events do not change what is printed for an occurrence. -/
theorem printed_snoc (h : List (Ev K)) (e x : Ev K) (hx : x ∈ h) :
    printed (h ++ [e]) x = printed h x := by
  unfold printed
  rw [firsts_snoc]
  split
  · rfl
  · rw [number_snoc, List.find?_append]
    obtain ⟨g, hg, hgx⟩ := firsts_rep h x hx
    cases hf : (number (firsts h)).find? (fun p => same p.1 x) with
    | some p => rfl
    | none =>
      exfalso
      rw [List.find?_eq_none] at hf
      rw [← number_fst (firsts h)] at hg
      obtain ⟨q, hq, rfl⟩ := List.mem_map.1 hg
      exact hf q hq hgx

theorem filterMap_snoc (h : List (Ev K)) (e : Ev K) :
    (h ++ [e]).filterMap (printed (h ++ [e]))
      = h.filterMap (printed h) ++ (printed (h ++ [e]) e).toList := by
  rw [List.filterMap_append]
  have h1 : ∀ l : List (Ev K), (∀ x ∈ l, x ∈ h) →
      l.filterMap (printed (h ++ [e])) = l.filterMap (printed h) := by
    intro l
    induction l with
    | nil => intro _; rfl
    | cons a l ih =>
      intro hl
      rw [List.filterMap_cons, List.filterMap_cons, printed_snoc h e a (hl a (by simp)),
        ih (fun x hx => hl x (by simp [hx]))]
  rw [h1 h (fun _ h => h)]
  cases hp : printed (h ++ [e]) e <;> simp [hp]

/-- The step when duplicates are printed. -/
theorem step_dup {o : Opts} {s : St K} {H : Hist K} (hi : Inv o s H) (e : Ev K)
    (hlen : H.h.length + 1 < 2 ^ 32) (ho : o.showDuplicates = true)
    (hs : s.out = H.h.filterMap (printed H.h)) :
    (reportError o s e).out
      = (H.step o.reportMax e).h.filterMap (printed (H.step o.reportMax e).h) := by
  unfold reportError Hist.step
  rw [throttle_iff hi (by omega)]
  split
  · exact hs
  · split
    · rw [wild_spec]; exact hs
    · show _ = (H.h ++ [e]).filterMap (printed (H.h ++ [e]))
      rw [filterMap_snoc, ← hs]
      cases hn : (firsts H.h).any (same · e) with
      | true =>
        obtain ⟨f, hf, hse⟩ := List.any_eq_true.1 hn
        obtain ⟨-, h2, h3, n, hp, h4⟩ := old_inv hi hf hse hlen
        dsimp only
        rw [if_pos h2]
        have hpr : printed (H.h ++ [e]) e = if f.supp.isNone then some (report (f, n)) else none := by
          unfold printed
          rw [firsts_snoc, hn, if_pos rfl]
          cases hfi : (number (firsts H.h)).find? (fun p => same p.1 e) with
          | none =>
            rw [List.find?_eq_none] at hfi
            exact absurd hse (hfi _ hp)
          | some q =>
            have h5 := List.find?_some hfi
            have h6 : same q.1 f = true := by
              have h5 := same_iff.1 h5
              have h7 := same_iff.1 hse
              exact same_iff.2 ⟨h5.1.trans h7.1.symm, h5.2.trans h7.2.symm⟩
            rw [number_inj H.h q (List.mem_of_find?_eq_some hfi) _ hp h6]; rfl
        rw [hpr]
        have hsp : (record s e.typ e.key).2.supp = f.supp := by rw [h4]; rfl
        rw [hsp]
        cases hf0 : f.supp with
        | some p =>
          simp only [print, Bool.false_eq_true, if_false, Option.isNone_some, Option.toList_none,
            List.append_nil]
          exact h3
        | none =>
          simp only [print, if_true, Option.isNone_none, Option.toList_some]
          rw [h3, h4]
          congr 2
          simp [entry, report, hf0]
      | false =>
        obtain ⟨-, h2, h3⟩ := new_inv hi hn
        dsimp only
        rw [h2, if_neg (by decide), if_pos rfl, h3]
        congr 1
        unfold printed
        rw [firsts_snoc, hn]
        simp only [Bool.false_eq_true, if_false]
        rw [number_snoc, List.find?_append]
        have hno : (number (firsts H.h)).find? (fun p => same p.1 e) = none := by
          rw [List.find?_eq_none]
          intro q hq
          rw [List.any_eq_false] at hn
          refine hn q.1 ?_
          rw [← number_fst (firsts H.h)]; exact List.mem_map_of_mem hq
        rw [hno]
        have hee : same e e = true := by simp [same]
        simp only [Option.none_or, List.find?_cons, hee, Option.bind_some]
        cases hsp : e.supp <;> simp

/-- C42: with `-show_duplicate_callstacks`, every occurrence of an unsuppressed kind of error is
printed, with the number of its kind, and no occurrence of a suppressed one. -/
theorem C42_duplicates (o : Opts) (es : List (Ev K)) (hlen : es.length < 2 ^ 32)
    (ho : o.showDuplicates = true) :
    (errors o es).out
      = (hist o.reportMax es).h.filterMap (printed (hist o.reportMax es).h) := by
  induction es using List.reverseRecOn with
  | nil => rfl
  | append_singleton es e ih =>
    have hl : es.length + 1 < 2 ^ 32 := by simpa using hlen
    rw [hist_snoc, errors_snoc]
    refine step_dup (errors_inv o es (by omega)) e ?_ ho (ih (by omega))
    have := hist_len o.reportMax es
    omega

example : (errors { showDuplicates := true } ([⟨0, 7, [], none, false⟩, ⟨0, 8, [], some (3, true), false⟩,
      ⟨0, 7, [], none, false⟩, ⟨0, 8, [], none, false⟩, ⟨1, 7, [], none, true⟩] : List (Ev Nat))).out
    = [⟨0, 7, 1, false⟩, ⟨0, 7, 1, false⟩, ⟨1, 7, 1, true⟩] := by decide

/-- C42: no two printed reports have the same type and callstack. -/
theorem C42_reported_once (o : Opts) (es : List (Ev K)) (hlen : es.length < 2 ^ 32)
    (ho : o.showDuplicates = false) :
    (errors o es).out.Pairwise fun a b => ¬ (a.typ = b.typ ∧ a.key = b.key) := by
  rw [C42_reports o es hlen ho, List.pairwise_map]
  apply List.Pairwise.filter
  have h := firsts_apart (hist o.reportMax es).h
  rw [← number_fst (firsts (hist o.reportMax es).h), List.pairwise_map] at h
  refine h.imp ?_
  intro a b hab hc
  rw [same_iff.2 hc] at hab
  cases hab

/-- C42: the stored count of an error is the number of its occurrences. -/
theorem C42_counts (o : Opts) (es : List (Ev K)) (hlen : es.length < 2 ^ 32) :
    (∀ e ∈ (hist o.reportMax es).h, ∃ x, (errors o es).find e.typ e.key = some x ∧
      x.count.toNat = occ (hist o.reportMax es).h e) ∧
    ∀ t k, (∀ e ∈ (hist o.reportMax es).h, ¬ (e.typ = t ∧ e.key = k)) →
      (errors o es).find t k = none := by
  have hi := errors_inv o es hlen
  have hl := hist_len o.reportMax es
  generalize errors o es = s at hi
  generalize hist o.reportMax es = H at hi hl
  constructor
  · intro e he
    obtain ⟨f, hf, hs⟩ := firsts_rep H.h e he
    have hse := same_iff.1 hs
    have hoc : occ H.h f = occ H.h e := by
      unfold occ
      apply List.countP_congr
      intro x _
      rw [same_iff, same_iff, hse.1, hse.2]
    have hle := occ_le H.h e
    unfold St.find
    cases hx : s.tbl.find? (·.is e.typ e.key) with
    | none =>
      rw [List.find?_eq_none] at hx
      have hf' := hf
      rw [← number_fst (firsts H.h)] at hf'
      obtain ⟨q, hq, hqf⟩ := List.mem_map.1 hf'
      refine absurd ?_ (hx (entry H.h q) (by rw [hi.tbl]; exact List.mem_map_of_mem hq))
      rw [Err.is_iff]
      show q.1.typ = _ ∧ q.1.key = _
      rw [hqf]; exact hse
    | some x =>
      refine ⟨x, rfl, ?_⟩
      have h1 := Err.is_iff.1 (List.find?_some (p := fun y : Err K => y.is e.typ e.key) hx)
      have h2 := List.mem_of_find?_eq_some hx
      rw [hi.tbl] at h2
      obtain ⟨q, hq, rfl⟩ := List.mem_map.1 h2
      have hoc' : occ H.h q.1 = occ H.h e := by
        unfold occ
        apply List.countP_congr
        intro x _
        have h3 : q.1.typ = e.typ ∧ q.1.key = e.key := h1
        rw [same_iff, same_iff, h3.1, h3.2]
      show (BitVec.ofNat 32 (occ H.h q.1)).toNat = _
      rw [hoc', BitVec.toNat_ofNat, Nat.mod_eq_of_lt (by omega)]
  · intro t k hno
    unfold St.find
    rw [List.find?_eq_none, hi.tbl]
    intro x hx hc
    obtain ⟨q, hq, rfl⟩ := List.mem_map.1 hx
    have h2 : q.1 ∈ firsts H.h := by
      rw [← number_fst (firsts H.h)]; exact List.mem_map_of_mem hq
    exact hno q.1 (firsts_sub H.h _ h2) (Err.is_iff.1 hc)

/-- C42: the unique counters are the numbers of different unsuppressed errors, the total counters
the numbers of their occurrences, per type and separately for normal and potential errors. -/
theorem C42_unique_total (o : Opts) (es : List (Ev K)) (hlen : es.length < 2 ^ 32) (b : Bool)
    (t : Nat) :
    ((errors o es).uniq b t).toNat
      = (firsts (hist o.reportMax es).h).countP (fun f => inSet b f && f.typ = t) ∧
    ((errors o es).total b t).toNat
      = occOf (hist o.reportMax es).h (fun f => inSet b f && f.typ = t) := by
  have hi := errors_inv o es hlen
  have hl := hist_len o.reportMax es
  have h1 := firsts_len (hist o.reportMax es).h
  constructor
  · rw [hi.uniq, BitVec.toNat_ofNat, Nat.mod_eq_of_lt]
    exact Nat.lt_of_le_of_lt List.countP_le_length (by omega)
  · rw [hi.total, BitVec.toNat_ofNat, Nat.mod_eq_of_lt]
    exact Nat.lt_of_le_of_lt List.countP_le_length (by omega)

/-- C42: the suppression counters count every occurrence of a suppressed error, including those
covered by a suppression of a whole module, modulo the width of the counters. -/
theorem C42_suppressed (o : Opts) (es : List (Ev K)) (hlen : es.length < 2 ^ 32) :
    (∀ b, (errors o es).matched b = BitVec.ofNat 32
      ((hist o.reportMax es).w.countP (fun p => p.2 = b)
        + occOf (hist o.reportMax es).h fun f => f.supp.any fun p => p.2 = b)) ∧
    ∀ i, (errors o es).used i = BitVec.ofNat 32
      ((hist o.reportMax es).w.countP (fun p => p.1 = i)
        + occOf (hist o.reportMax es).h fun f => f.supp.any fun p => p.1 = i) :=
  ⟨(errors_inv o es hlen).matched, (errors_inv o es hlen).used⟩

/-- C42: events are dropped exactly once the number of different reported errors has reached the
limit, and the dropped ones are counted. -/
theorem C42_throttled (o : Opts) (es : List (Ev K)) (hlen : es.length < 2 ^ 32) :
    (errors o es).throttled.toNat = (hist o.reportMax es).thr := by
  have hi := errors_inv o es hlen
  have hl := hist_len o.reportMax es
  rw [hi.throttled, BitVec.toNat_ofNat, Nat.mod_eq_of_lt (by omega)]


/-- Two errors of type 0 with callstack 7, one suppressed error, a potential one of type 1 and a
third occurrence of the first. -/
example :
    let es : List (Ev Nat) := [⟨0, 7, [], none, false⟩, ⟨0, 7, [], none, false⟩,
      ⟨0, 8, [], some (3, true), false⟩, ⟨1, 7, [], none, true⟩, ⟨0, 9, [(2, false)], none, false⟩,
      ⟨0, 7, [], none, false⟩]
    let s := errors {} es
    s.out = [⟨0, 7, 1, false⟩, ⟨1, 7, 1, true⟩] ∧ s.uniq false 0 = 1 ∧ s.total false 0 = 3 ∧
      s.uniq true 1 = 1 ∧ s.total true 1 = 1 ∧ s.matched true = 1 ∧ s.matched false = 1 ∧
      s.used 2 = 1 ∧ s.used 3 = 1 ∧ s.tbl.map (·.count) = [3, 1, 1] := by decide

example : (errors { reportMax := 1 } [(⟨0, 7, [], none, false⟩ : Ev Nat), ⟨0, 8, [], none, false⟩,
    ⟨0, 7, [], none, false⟩]).throttled = 2 := by decide

/-- The event of the next theorem. -/
def ev0 : Ev Nat := ⟨0, 0, [], none, false⟩

theorem hist_replicate (n : Nat) :
    hist 20000 (List.replicate n ev0) = { h := List.replicate n ev0 } ∧
    firsts (List.replicate (n + 1) ev0) = [ev0] := by
  induction n with
  | zero => exact ⟨rfl, by decide⟩
  | succ n ih =>
    have hf : ∀ m, firsts (List.replicate (m + 1) ev0) = [ev0] := by
      intro m
      induction m with
      | zero => decide
      | succ m ihm =>
        rw [List.replicate_succ', firsts_snoc, ihm, if_pos (by decide)]
    refine ⟨?_, hf (n + 1)⟩
    rw [List.replicate_succ', hist_snoc, ih.1]
    unfold Hist.step
    rw [if_neg, if_neg (by decide)]
    intro hc
    have h2 := hc.2
    cases n with
    | zero => exact absurd h2 (by decide)
    | succ n =>
      unfold shown at h2
      simp only [hf n] at h2
      exact absurd h2 (by decide)

theorem record_one (s : St Nat) (x : Err Nat) (t k : Nat) (h : s.tbl = [x]) (hx : x.is t k = true)
    (hs : x.supp = none) :
    record s t k = ({ s with tbl := [{ x with count := x.count + 1 }]
                             total := bump2 s.total x.potential t 1 },
      { x with count := x.count + 1 }) := by
  have hf : s.find t k = some x := by
    unfold St.find; rw [h]; simp only [List.find?_cons, hx]
  have hx' : x.is x.typ x.key = true := Err.is_iff.2 ⟨rfl, rfl⟩
  unfold record
  rw [hf]
  simp only [hs, Option.isNone_none, if_true, St.put, h, List.map_cons, List.map_nil, hx']

/-- The count of a stored error has 32 bits.  After 2^32 occurrences it wraps, and the next
occurrence is reported as if it were the first: no statement without a bound on the number of
events holds. -/
theorem C42_count_wraps :
    ∃ es : List (Ev Nat), (errors {} es).out = [⟨0, 0, 1, false⟩, ⟨0, 0, 2, false⟩] := by
  have hN : ∃ N, N + 1 = 2 ^ 32 ∧ 1 ≤ N := ⟨2 ^ 32 - 1, by decide, by decide⟩
  obtain ⟨N, hN, hN1⟩ := hN
  refine ⟨(List.replicate N ev0 ++ [ev0]) ++ [ev0], ?_⟩
  have hlen : (List.replicate N ev0).length < 2 ^ 32 := by rw [List.length_replicate]; omega
  have hi := errors_inv {} (List.replicate N ev0) hlen
  have hh := (hist_replicate N).1
  obtain ⟨M, rfl⟩ : ∃ M, N = M + 1 := ⟨N - 1, by omega⟩
  have hf := (hist_replicate M).2
  have hm : ({} : Opts).reportMax = 20000 := rfl
  rw [hm, hh] at hi
  have hocc : occ (List.replicate (M + 1) ev0) ev0 = M + 1 := by
    unfold occ; rw [List.countP_replicate]; rfl
  have htbl := hi.tbl
  have hout := hi.out rfl
  have hrf := hi.reported false
  have hrt := hi.reported true
  have hid := hi.errorId
  simp only [hf] at htbl hout hrf hrt hid
  have hnum : number [ev0] = [(ev0, 1)] := by decide
  rw [hnum] at htbl hout
  have hent : entry (List.replicate (M + 1) ev0) (ev0, 1)
      = { typ := 0, key := 0, id := 1, count := -1, supp := none, potential := false } := by
    unfold entry
    have : BitVec.ofNat 32 (M + 1) = -1 := by
      apply BitVec.eq_of_toNat_eq
      rw [BitVec.toNat_ofNat, Nat.mod_eq_of_lt (by omega)]
      have : (-1 : U32).toNat = 2 ^ 32 - 1 := by decide
      omega
    simp only [hocc, this]; rfl
  have htbl' : (errors {} (List.replicate (M + 1) ev0)).tbl
      = [{ typ := 0, key := 0, id := 1, count := -1, supp := none, potential := false }] := by
    rw [htbl, List.map_cons, hent]; rfl
  rw [errors_snoc, errors_snoc]
  generalize errors {} (List.replicate (M + 1) ev0) = s at htbl' hout hrf hrt hid
  clear hi hocc hent htbl hh hf hlen
  have hrf' : s.reported false = 1 := by rw [hrf]; decide
  have hrt' : s.reported true = 0 := by rw [hrt]; decide
  have hid' : s.errorId = 1 := by rw [hid]; decide
  have hout' : s.out = [⟨0, 0, 1, false⟩] := by rw [hout]; decide
  let x0 : Err Nat := { typ := 0, key := 0, id := 1, count := 0 }
  have step1 : reportError {} s ev0 = { s with
      tbl := [x0]
      total := bump2 s.total false 0 1 } := by
    unfold reportError
    rw [hrf', hrt', if_neg (by decide), if_neg (by decide)]
    dsimp only
    rw [record_one s _ ev0.typ ev0.key htbl' rfl rfl,
      if_neg (show ¬ ((-1 : U32) + 1 > 1) by decide), if_neg (show ¬ ((-1 : U32) + 1 = 1) by decide)]
    rfl
  rw [step1]
  unfold reportError
  rw [if_neg (by simp only [hrf', hrt']; decide), if_neg (by decide)]
  dsimp only
  rw [record_one _ x0 ev0.typ ev0.key rfl rfl rfl,
    if_neg (show ¬ ((0 : U32) + 1 > 1) by decide), if_pos (show (0 : U32) + 1 = 1 by decide)]
  simp only [firstError, acquire, print, ev0, hid', hout', St.put]
  rfl

end Verif.Er
