import Verif.SysArgsProps
/-
Specification of property C56 and the generic theorems: which memory Dr. Memory checks before
and marks as written after a system call, for the arguments described by the table.
-/

namespace Verif.SysArgs

/-! ## Specification -/

/-- A size taken from another parameter: that parameter exists and is not the argument
itself; if the size is both passed in and returned, the parameter has an entry of its own,
of four bytes. -/
def SizeOk (s : Sys) (a : Arg) : Prop :=
  (a.size ≤ 0 ∧ a.size ≠ RET ∧ ¬ (a.fl.ct = true ∧ a.misc = .cstring) →
    (-a.size).toNat < s.argc ∧ (-a.size).toNat ≠ a.param) ∧
  (a.fl.inout = true → a.size ≤ 0 ∧ a.size ≠ RET ∧
    (s.args.find? (fun b => b.param == (-a.size).toNat)).map (fun b => b.size) = some 4)

instance (s : Sys) (a : Arg) : Decidable (SizeOk s a) := by
  unfold SizeOk; infer_instance

/-- At most two entries for one parameter; the result is used as a size only in the second
of two entries, which otherwise agree and of which the first takes its size from another
parameter. -/
def PairOk (s : Sys) (b : Arg) : Prop :=
  (s.args.filter (fun x => x.param == b.param)).length ≤ 2 ∧
  (b.size = RET → ∃ a ∈ s.args, a.size < 0 ∧ a.size ≠ RET ∧
    s.args.filter (fun x => x.param == b.param) = [a, b] ∧ a.fl = b.fl ∧ a.misc = b.misc)

instance (s : Sys) (a : Arg) : Decidable (PairOk s a) := by
  unfold PairOk; infer_instance

/-- Flags of one entry: those that the Linux table does not use, no written value that is
passed in the register itself, element sizes 6, 12 or 16. -/
def FlagsOk (a : Arg) : Prop :=
  a.fl.plus1 = false ∧ a.fl.no0 = false ∧ a.fl.nonmem = false ∧ a.fl.ifNext = false ∧
  (a.fl.w = true → a.fl.inlined = false) ∧
  (a.fl.elts = true → a.misc = .elt 6 ∨ a.misc = .elt 12 ∨ a.misc = .elt 16)

instance (a : Arg) : Decidable (FlagsOk a) := by
  unfold FlagsOk; infer_instance

/-- What the walk over the table relies on; the assertions of drsyscall/drsyscall.c
(1423, 1494-1498, 1311, 1357-1361, 1375) and the comments at drsyscall_os.h:200-218. -/
def TableOk (s : Sys) : Prop :=
  s.args.length ≤ 6 ∧ s.argc ≤ 6 ∧
  s.args.Pairwise (fun a b => a.param ≤ b.param) ∧
  ∀ a ∈ s.args,
    invalid a = false ∧ a.param < s.argc ∧ FlagsOk a ∧ SizeOk s a ∧ PairOk s a

instance (s : Sys) : Decidable (TableOk s) := by
  unfold TableOk; infer_instance

/-- The parameter's entries are simple ranges: no structure to walk into and no
dependence on another parameter being null. -/
def Plain (args : List Arg) (p : Nat) : Prop :=
  ∀ a ∈ args, a.param = p → a.fl.ct = false ∧ a.fl.ifPrev = false

/-- The value of parameter `q`: 32 bits if the table says that it has four bytes. -/
def paramVal (e : Env) (args : List Arg) (q : Nat) : Nat :=
  match args.find? (fun b => b.param == q) with
  | some b => if b.size = 4 then e.arg q % 2 ^ 32 else e.arg q
  | none => e.arg q

/-- The number of bytes that an entry stands for. -/
def Count (e : Env) (pre : Bool) (args : List Arg) (a : Arg) : Nat :=
  let n :=
    if a.size = RET then (if pre then 0 else e.result)
    else if 0 < a.size then a.size.toNat
    else if a.fl.inout then
      (if e.arg (-a.size).toNat = 0 then 0 else (rdLE e.mem (e.arg (-a.size).toNat) 4).getD 0)
    else paramVal e args (-a.size).toNat
  match a.misc, a.fl.elts with
  | .elt k, true => n * k.toNat % 2 ^ 64
  | _, _ => n

/-! ## Lemmas -/

theorem split_sorted (p : Nat) : ∀ (l : List Arg), l.Pairwise (fun a b => a.param ≤ b.param) →
    l = l.filter (fun a => decide (a.param < p)) ++
      (l.filter (fun a => a.param == p) ++ l.filter (fun a => decide (p < a.param))) := by
  intro l
  induction l with
  | nil => intro _; rfl
  | cons a l ih =>
    intro h
    obtain ⟨h1, h2⟩ := List.pairwise_cons.1 h
    have ih := ih h2
    rcases Nat.lt_trichotomy a.param p with hp | hp | hp
    · rw [List.filter_cons_of_pos (by simpa using hp), List.filter_cons_of_neg (by simp; omega),
        List.filter_cons_of_neg (by simp; omega), List.cons_append, ← ih]
    · have e1 : l.filter (fun a => decide (a.param < p)) = [] := by
        rw [List.filter_eq_nil_iff]
        intro b hb
        have := h1 b hb
        simp; omega
      rw [List.filter_cons_of_neg (by simp; omega), e1,
        List.filter_cons_of_pos (by simpa using hp), List.filter_cons_of_neg (by simp; omega)]
      rw [e1] at ih
      simp only [List.nil_append, List.cons_append] at ih ⊢
      rw [← ih]
    · have e1 : l.filter (fun a => decide (a.param < p)) = [] := by
        rw [List.filter_eq_nil_iff]
        intro b hb
        have := h1 b hb
        simp; omega
      have e2 : l.filter (fun a => a.param == p) = [] := by
        rw [List.filter_eq_nil_iff]
        intro b hb
        have := h1 b hb
        simp; omega
      rw [List.filter_cons_of_neg (by simp; omega), e1,
        List.filter_cons_of_neg (by simp; omega), e2, List.filter_cons_of_pos (by simpa using hp)]
      rw [e1, e2] at ih
      simp only [List.nil_append] at ih ⊢
      rw [← ih]

/-- The search for the entry of the size parameter finds the entry of that parameter, in
whatever direction it looks. -/
theorem sizeEntry_eq {l : List Arg} (hs : l.Pairwise (fun a b => a.param ≤ b.param)) {i : Nat}
    {a : Arg} (hi : l[i]? = some a) (hq : (-a.size).toNat ≠ a.param) :
    sizeEntry l i a = (l.find? (fun b => b.param == (-a.size).toNat)).getD zeroArg := by
  unfold sizeEntry
  dsimp only
  split
  · simp
  · rename_i hlt
    have hlen : i < l.length := by
      rcases Nat.lt_or_ge i l.length with h | h
      · exact h
      · rw [List.getElem?_eq_none h] at hi; cases hi
    have hl : l = l.take (i + 1) ++ l.drop (i + 1) := (List.take_append_drop _ _).symm
    have hnone : (l.take (i + 1)).find? (fun b => b.param == (-a.size).toNat) = none := by
      rw [List.find?_eq_none]
      intro b hb
      obtain ⟨j, hj, hb⟩ := List.mem_take_iff_getElem.1 hb
      have hj' : j < l.length := by omega
      have ha : l[i] = a := by
        rw [List.getElem?_eq_getElem hlen] at hi
        exact Option.some.inj hi
      have : b.param ≤ a.param := by
        rcases Nat.lt_or_ge j i with h | h
        · have := List.pairwise_iff_getElem.1 hs j i hj' hlen h
          rw [ha] at this
          rw [← hb]; exact this
        · have : j = i := by omega
          subst this
          rw [← hb, ha]
          exact Nat.le_refl _
      simp; omega
    conv => rhs; rw [hl, List.find?_append, hnone]
    rfl

theorem getSize_eq {s : Sys} (h : TableOk s) {i : Nat} {a : Arg} (hi : s.args[i]? = some a)
    (hc : a.fl.ct = false) (e : Env) (pre : Bool) :
    getSize e pre s.args i a = Count e pre s.args a := by
  obtain ⟨_, _, hs, hall⟩ := h
  have ham : a ∈ s.args := List.mem_of_getElem? hi
  obtain ⟨_, _, hf, hsz, _⟩ := hall a ham
  obtain ⟨hp1, _, _, _, _, hel⟩ := hf
  obtain ⟨hsz1, hsz2⟩ := hsz
  unfold getSize Count
  dsimp only
  rw [if_neg (by simp [hc]), hp1]
  have hbase : (if a.size = RET then (if pre = true then 0 else e.result)
      else if a.fl.inout = true then
        if e.arg (-a.size).toNat = 0 then 0
        else (rdLE e.mem (e.arg (-a.size).toNat) (sizeEntry s.args i a).size.toNat).getD 0
      else if 0 < a.size then a.size.toNat
      else if (sizeEntry s.args i a).size = 4 then e.arg (-a.size).toNat % 2 ^ 32
      else e.arg (-a.size).toNat) =
      (if a.size = RET then (if pre = true then 0 else e.result)
      else if 0 < a.size then a.size.toNat
      else if a.fl.inout = true then
        (if e.arg (-a.size).toNat = 0 then 0
          else (rdLE e.mem (e.arg (-a.size).toNat) 4).getD 0)
      else paramVal e s.args (-a.size).toNat) := by
    by_cases hr : a.size = RET
    · simp only [if_pos hr]
    · simp only [if_neg hr]
      by_cases hpos : 0 < a.size
      · have hio : a.fl.inout = false := by
          cases hio : a.fl.inout with
          | false => rfl
          | true => have := (hsz2 hio).1; omega
        simp only [hio, if_pos hpos, Bool.false_eq_true, if_false]
      · simp only [if_neg hpos]
        have hq := (hsz1 ⟨by omega, hr, by simp [hc]⟩).2
        have hse := sizeEntry_eq hs hi hq
        by_cases hio : a.fl.inout = true
        · simp only [if_pos hio]
          obtain ⟨_, _, h4⟩ := hsz2 hio
          rw [hse]
          cases hfnd : s.args.find? (fun b => b.param == (-a.size).toNat) with
          | none => rw [hfnd] at h4; cases h4
          | some b =>
            rw [hfnd] at h4
            have h4 : b.size = 4 := by simpa using h4
            simp only [Option.getD_some, h4]
            rfl
        · simp only [if_neg hio]
          unfold paramVal
          rw [hse]
          cases hfnd : s.args.find? (fun b => b.param == (-a.size).toNat) with
          | none => simp [zeroArg]
          | some b => rfl
  simp only [Bool.false_eq_true, if_false]
  rw [hbase]
  cases hel' : a.fl.elts with
  | false => cases a.misc <;> rfl
  | true =>
    rcases hel hel' with h | h | h <;> rw [h] <;> rfl

/-- The list of entries around those of parameter `p`. -/
theorem parts {s : Sys} (h : TableOk s) (p : Nat) :
    ∃ pre suf, s.args = pre ++ (s.args.filter (fun a => a.param == p) ++ suf) ∧
      (∀ a ∈ pre, invalid a = false ∧ a.param ≠ p) ∧
      (∀ a ∈ suf, invalid a = false ∧ a.param ≠ p) ∧
      pre.length + ((s.args.filter (fun a => a.param == p)).length + suf.length) ≤ 6 := by
  obtain ⟨hlen, _, hs, hall⟩ := h
  refine ⟨_, _, split_sorted p s.args hs, ?_, ?_, ?_⟩
  · intro a ha
    have ha := List.mem_filter.1 ha
    exact ⟨(hall a ha.1).1, by have := ha.2; simp at this; omega⟩
  · intro a ha
    have ha := List.mem_filter.1 ha
    exact ⟨(hall a ha.1).1, by have := ha.2; simp at this; omega⟩
  · have := congrArg List.length (split_sorted p s.args hs)
    simp only [List.length_append] at this
    omega

/-- Once the first entry of `p` has been handled, the others are passed over. -/
theorem preLoop_rest (e : Env) (all : List Arg) (p : Nat) (suf : List Arg) (st : St)
    (hv : ∀ a ∈ suf, invalid a = false ∧ a.param ≠ p) :
    ∀ (grp : List Arg) (i : Nat), (∀ a ∈ grp, invalid a = false ∧ a.param = p) →
      i + (grp.length + suf.length) ≤ 6 →
      (∀ r ∈ (preLoop e all (grp ++ suf) i (some p) st).1, r.ord ≠ p) ∧
        (preLoop e all (grp ++ suf) i (some p) st).2.known p = st.known p := by
  intro grp
  induction grp with
  | nil =>
    intro i _ hlen
    exact preLoop_other e all p suf i (some p) st hv (by simp at hlen; omega)
  | cons b grp ih =>
    intro i hg hlen
    obtain ⟨hb1, hb2⟩ := hg b List.mem_cons_self
    have hlen' : i + 1 + (grp.length + suf.length) ≤ 6 := by simp at hlen; omega
    rw [List.cons_append, preLoop, if_neg (by rw [hb1]; simp [MAX_ARGS]; omega),
      if_pos (by rw [hb2])]
    exact ih (i + 1) (fun a ha => hg a (List.mem_cons_of_mem _ ha)) hlen'

theorem osHandle_plain {e pre st} {a : Arg} {start size} (h : a.fl.ct = false) :
    osHandle e pre st a start size = none := by
  unfold osHandle
  rw [h]
  rfl

theorem shouldIgnore_plain {e all i} {a : Arg} (h1 : a.fl.ifNext = false)
    (h2 : a.fl.ifPrev = false) : shouldIgnore e all i a = false := by
  unfold shouldIgnore
  rw [h1, h2]
  rfl

/-- The size passed to the client: a count of `2^64 - 1` is taken for the marker of a string
and passed as 0. -/
def shown (n : Nat) : Nat := if n = 2 ^ 64 - 1 then 0 else n

/-- The pre-syscall event in terms of the parameter's first entry. -/
theorem pre_param {s : Sys} (h : TableOk s) {p : Nat} (hp : Plain s.args p) (e : Env) (st : St) :
    (∀ r, (r ∈ (preTable e s.args st).1 ∧ r.ord = p) ↔
      ∃ a, s.args.find? (fun a => a.param == p) = some a ∧ a.fl.inlined = false ∧
        e.arg p ≠ 0 ∧ 0 < Count e true s.args a ∧
        r = ⟨p, a.fl.r, a.fl.w, e.arg p, shown (Count e true s.args a)⟩) ∧
    (∀ a, s.args.find? (fun a => a.param == p) = some a → a.fl.inlined = false →
      (preTable e s.args st).2.known p = Count e true s.args a) := by
  obtain ⟨pre, suf, hsplit, hpre, hsuf, hlen⟩ := parts h p
  have hfind := List.head?_filter (p := fun a : Arg => a.param == p) (l := s.args)
  have hgrp : ∀ a ∈ s.args.filter (fun a => a.param == p), a ∈ s.args ∧ a.param = p := by
    intro a ha
    have := List.mem_filter.1 ha
    exact ⟨this.1, by simpa using this.2⟩
  generalize hG : s.args.filter (fun a => a.param == p) = grp at *
  obtain ⟨X, last', st', h1, h2, h3, h4⟩ :=
    preLoop_skip e s.args p (grp ++ suf) pre 0 none st hpre (by omega) (by simp)
  rw [← hsplit] at h4
  have hT : preTable e s.args st = preLoop e s.args s.args 0 none st := rfl
  rw [hT, h4]
  cases grp with
  | nil =>
    rw [← hfind]
    obtain ⟨o1, _⟩ := preLoop_other e s.args p suf (0 + pre.length) last' st' hsuf
      (by simp at hlen; omega)
    constructor
    · intro r
      constructor
      · rintro ⟨hr, hro⟩
        rcases List.mem_append.1 hr with h | h
        · exact absurd hro (h3 r h)
        · exact absurd hro (o1 r h)
      · rintro ⟨a, ha, _⟩; cases ha
    · intro a ha; cases ha
  | cons a rest =>
    rw [← hfind]
    obtain ⟨ham, hap⟩ := hgrp a List.mem_cons_self
    obtain ⟨hct, hip⟩ := hp a ham hap
    obtain ⟨hinv, _, hfl, _, _⟩ := h.2.2.2 a ham
    obtain ⟨_, _, hnm, hin, _, _⟩ := hfl
    have hidx : s.args[pre.length]? = some a := by
      rw [hsplit, List.getElem?_append_right (Nat.le_refl _)]
      simp
    have hgs := getSize_eq h hidx hct e true
    have hrest : ∀ b ∈ rest, invalid b = false ∧ b.param = p := by
      intro b hb
      obtain ⟨hb1, hb2⟩ := hgrp b (List.mem_cons_of_mem _ hb)
      exact ⟨(h.2.2.2 b hb1).1, hb2⟩
    have hlen1 : 0 + pre.length + 1 + (rest.length + suf.length) ≤ 6 := by
      simp at hlen; omega
    rw [List.cons_append, preLoop, if_neg (by rw [hinv]; simp [MAX_ARGS]; omega),
      if_neg (by rw [hap]; exact h1)]
    by_cases hinl : a.fl.inlined = true
    · rw [if_pos (by simp [hinl]), hap]
      obtain ⟨o1, _⟩ := preLoop_rest e s.args p suf st' hsuf rest _ hrest hlen1
      constructor
      · intro r
        constructor
        · rintro ⟨hr, hro⟩
          rcases List.mem_append.1 hr with h | h
          · exact absurd hro (h3 r h)
          · exact absurd hro (o1 r h)
        · rintro ⟨b, hb, hbi, _⟩
          cases hb
          rw [hinl] at hbi; cases hbi
      · intro b hb hbi
        cases hb
        rw [hinl] at hbi; cases hbi
    · have hinl : a.fl.inlined = false := by simpa using hinl
      rw [if_neg (by simp [hinl, hnm])]
      dsimp only
      rw [Nat.zero_add, hgs, hap]
      generalize hst : ({ st' with known := fun q => (if q = p then
        Count e true s.args a else st'.known q) } : St) = st1
      have hk1 : st1.known p = Count e true s.args a := by
        rw [← hst]
        show (if p = p then _ else _) = _
        rw [if_pos rfl]
      have hpa : preArg e s.args pre.length a st1 (Count e true s.args a) =
          (if e.arg p ≠ 0 ∧ 0 < Count e true s.args a then
            [⟨p, a.fl.r, a.fl.w, e.arg p, shown (Count e true s.args a)⟩] else [], st1) := by
        unfold preArg
        dsimp only
        rw [osHandle_plain hct, shouldIgnore_plain hin hip, hap]
        split
        · rfl
        · rfl
      rw [hpa]
      obtain ⟨o1, o2⟩ := preLoop_rest e s.args p suf st1 hsuf rest (pre.length + 1) hrest
        (by omega)
      constructor
      · intro r
        constructor
        · rintro ⟨hr, hro⟩
          rcases List.mem_append.1 hr with h | h
          · exact absurd hro (h3 r h)
          · rcases List.mem_append.1 h with h | h
            · refine ⟨a, rfl, hinl, ?_⟩
              dsimp only at h
              split at h
              · rename_i hc
                exact ⟨hc.1, hc.2, by simpa using h⟩
              · cases h
            · exact absurd hro (o1 r h)
        · rintro ⟨b, hb, _, hc1, hc2, hr⟩
          cases hb
          refine ⟨?_, by rw [hr]⟩
          apply List.mem_append_right
          apply List.mem_append_left
          dsimp only
          rw [if_pos ⟨hc1, hc2⟩, hr]
          exact List.mem_cons_self
      · intro b hb _
        cases hb
        rw [o2, hk1]

theorem postArg_plain {e all st i} {a : Arg} {ign size} (h1 : a.fl.ct = false)
    (h2 : a.fl.ifNext = false) (h3 : a.fl.ifPrev = false) :
    postArg e all st i a ign size =
      if e.arg a.param ≠ 0 ∧ 0 < size then [⟨a.param, a.fl.r, a.fl.w, e.arg a.param, size⟩]
      else [] := by
  unfold postArg
  dsimp only
  rw [osHandle_plain h1, shouldIgnore_plain h2 h3]
  simp

/-- Number of bytes marked as written for the written parameter `p`, from the entries of
`p`, the size `k` stored before the call and the state after it. -/
def Written (e : Env) (args : List Arg) (k : Nat) : List Arg → Nat
  | [a] => min (Count e false args a) k
  | [a, b] =>
    if min (Count e false args b) k = 0 then min (Count e false args a) k
    else min (Count e false args b) k
  | _ => 0

/-- The post-syscall event in terms of the parameter's entries. -/
theorem post_param {s : Sys} (h : TableOk s) {p : Nat} (hp : Plain s.args p) (e : Env) (st : St)
    (hw : ∀ a ∈ s.args, a.param = p → a.fl.w = true) (r : Rep) :
    (r ∈ postTable e s.args st ∧ r.ord = p) ↔
      ∃ a, (s.args.filter (fun a => a.param == p)).getLast? = some a ∧ e.arg p ≠ 0 ∧
        0 < Written e s.args (st.known p) (s.args.filter (fun a => a.param == p)) ∧
        r = ⟨p, a.fl.r, a.fl.w, e.arg p,
          Written e s.args (st.known p) (s.args.filter (fun a => a.param == p))⟩ := by
  obtain ⟨pre, suf, hsplit, hpre, hsuf, hlen⟩ := parts h p
  have hgrp : ∀ a ∈ s.args.filter (fun a => a.param == p), a ∈ s.args ∧ a.param = p := by
    intro a ha
    have := List.mem_filter.1 ha
    exact ⟨this.1, by simpa using this.2⟩
  have hle2 : (s.args.filter (fun a => a.param == p)).length ≤ 2 := by
    cases hG : s.args.filter (fun a => a.param == p) with
    | nil => simp
    | cons a l =>
      have ha : a ∈ s.args.filter (fun a => a.param == p) := by rw [hG]; exact List.mem_cons_self
      obtain ⟨ham, hap⟩ := hgrp a ha
      have := (h.2.2.2 a ham).2.2.2.2.1
      rw [hap, hG] at this
      exact this
  have hsuf' : ∀ a ∈ suf, a.param ≠ p := fun a ha => (hsuf a ha).2
  generalize hG : s.args.filter (fun a => a.param == p) = grp at *
  obtain ⟨X, last', ls', h1, h3, h4⟩ :=
    postLoop_skip e s.args st p (grp ++ suf) pre 0 none 0 hpre (by omega) (by simp)
  rw [← hsplit, Nat.zero_add] at h4
  have hT : postTable e s.args st = postLoop e s.args st s.args 0 none 0 := rfl
  rw [hT, h4]
  have hX : ∀ Y : List Rep, (r ∈ X ++ Y ∧ r.ord = p) ↔ (r ∈ Y ∧ r.ord = p) := by
    intro Y
    constructor
    · rintro ⟨hr, hro⟩
      rcases List.mem_append.1 hr with h | h
      · exact absurd hro (h3 r h)
      · exact ⟨h, hro⟩
    · rintro ⟨hr, hro⟩
      exact ⟨List.mem_append_right _ hr, hro⟩
  rw [hX]
  match grp, hG with
  | [], hG =>
    constructor
    · rintro ⟨hr, hro⟩
      exact absurd hro (postLoop_other e s.args st p suf _ _ _ hsuf' r hr)
    · rintro ⟨a, ha, _⟩; cases ha
  | [a], hG =>
    obtain ⟨ham, hap⟩ := hgrp a List.mem_cons_self
    obtain ⟨hct, hip⟩ := hp a ham hap
    obtain ⟨hinv, _, hfl, _, _⟩ := h.2.2.2 a ham
    obtain ⟨_, _, _, hin, _, _⟩ := hfl
    have hidx : s.args[pre.length]? = some a := by
      rw [hsplit, List.getElem?_append_right (Nat.le_refl _)]
      simp
    have hgs := getSize_eq h hidx hct e false
    have hw' := hw a ham hap
    have hhd : ¬ (pre.length < MAX_ARGS - 1 ∧ (suf.headD zeroArg).param = a.param ∧
        invalid (suf.headD zeroArg) = false) := by
      rintro ⟨_, hq, hq2⟩
      cases suf with
      | nil => simp [zeroArg, invalid] at hq2
      | cons b suf => exact hsuf' b List.mem_cons_self (by rw [← hap]; exact hq)
    simp only [List.length_cons, List.length_nil] at hlen
    rw [List.cons_append, List.nil_append, postLoop,
      if_neg (by rw [hinv]; simp [MAX_ARGS]; omega), if_neg (by simp [hw'])]
    dsimp only
    rw [if_neg (by rw [hap]; exact h1), if_neg hhd, postArg_plain hct hin hip, hgs, hap]
    constructor
    · rintro ⟨hr, hro⟩
      rcases List.mem_append.1 hr with h | h
      · refine ⟨a, rfl, ?_⟩
        split at h
        · rename_i hc
          exact ⟨hc.1, hc.2, by simpa [Written] using h⟩
        · cases h
      · exact absurd hro (postLoop_other e s.args st p suf _ _ _ hsuf' r h)
    · rintro ⟨b, hb, hc1, hc2, hr⟩
      cases hb
      refine ⟨List.mem_append_left _ ?_, by rw [hr]⟩
      rw [if_pos ⟨hc1, hc2⟩, hr]
      exact List.mem_cons_self
  | [a, b], hG =>
    obtain ⟨ham, hap⟩ := hgrp a List.mem_cons_self
    obtain ⟨hbm, hbp⟩ := hgrp b (by simp)
    obtain ⟨hct, hip⟩ := hp a ham hap
    obtain ⟨hctb, hipb⟩ := hp b hbm hbp
    obtain ⟨hinv, _, hfl, _, _⟩ := h.2.2.2 a ham
    obtain ⟨hinvb, _, hflb, _, _⟩ := h.2.2.2 b hbm
    obtain ⟨_, hn0b, _, hinb, _, _⟩ := hflb
    have hidx : s.args[pre.length]? = some a := by
      rw [hsplit, List.getElem?_append_right (Nat.le_refl _)]
      simp
    have hidxb : s.args[pre.length + 1]? = some b := by
      rw [hsplit, List.getElem?_append_right (by omega)]
      simp
    have hgs := getSize_eq h hidx hct e false
    have hgsb := getSize_eq h hidxb hctb e false
    have hw' := hw a ham hap
    have hwb := hw b hbm hbp
    simp only [List.length_cons, List.length_nil] at hlen
    rw [List.cons_append, List.cons_append, List.nil_append, postLoop,
      if_neg (by rw [hinv]; simp [MAX_ARGS]; omega), if_neg (by simp [hw'])]
    dsimp only
    rw [if_neg (by rw [hap]; exact h1),
      if_pos ⟨by simp [MAX_ARGS]; omega, by simp [hap, hbp], by simpa using hinvb⟩,
      postLoop, if_neg (by rw [hinvb]; simp [MAX_ARGS]; omega), if_neg (by simp [hwb])]
    dsimp only
    rw [if_pos (by rw [hap, hbp]), postArg_plain hctb hinb hipb, hgs, hgsb, hap, hbp]
    have hss : ∀ n m, secondSize e s.args (pre.length + 1) b n m = if m = 0 then n else m := by
      intro n m
      unfold secondSize
      dsimp only
      rw [if_neg (by simp [hn0b])]
    rw [hss]
    rw [show (if min (Count e false s.args b) (st.known p) = 0
        then min (Count e false s.args a) (st.known p)
        else min (Count e false s.args b) (st.known p)) =
        Written e s.args (st.known p) [a, b] from rfl]
    constructor
    · rintro ⟨hr, hro⟩
      rcases List.mem_append.1 hr with h | h
      · refine ⟨b, rfl, ?_⟩
        split at h
        · rename_i hc
          exact ⟨hc.1, hc.2, by simpa using h⟩
        · cases h
      · exact absurd hro (postLoop_other e s.args st p suf _ _ _ hsuf' r h)
    · rintro ⟨c, hc, hc1, hc2, hr⟩
      cases hc
      refine ⟨List.mem_append_left _ ?_, by rw [hr]⟩
      rw [if_pos ⟨hc1, hc2⟩, hr]
      exact List.mem_cons_self
  | _ :: _ :: _ :: _, _ =>
    simp at hle2

end Verif.SysArgs
