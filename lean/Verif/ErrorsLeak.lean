import Mathlib.Data.Finset.Card
import Mathlib.Data.Finset.Filter
import Mathlib.Data.List.Induction
import Mathlib.Tactic.ByContra
import Verif.ErrorsProps

/-!
# C43: leak statistics across nudges
-/
namespace Verif.Er

variable {K : Type} [DecidableEq K]

/-! ## Specification -/

/-- What symbols say about a leak of a type with a callstack: the suppression that matches it, and
whether it is a likely false positive. -/
structure Sym (K : Type) where
  supp : Nat → K → Option (Nat × Bool)
  fp : Nat → K → Bool

/-- Leaks of this type are only counted, not printed. -/
def hidden (o : Opts) (t : Nat) : Bool :=
  (t = POSSIBLE && !o.possibleLeaks) || (t = REACHABLE && !o.showReachable)

/-- The suppression that applies: uncounted reachable leaks are not compared to suppressions. -/
def Sym.eff (Y : Sym K) (o : Opts) (t : Nat) (k : K) : Option (Nat × Bool) :=
  if t = REACHABLE ∧ o.showReachable = false then none else Y.supp t k

/-- The kind of a leak. -/
def kind (o : Opts) (l : Lk K) : Nat × K := (leakType o l, l.key)

/-- A leak as the leak scan of the exit or of a nudge hands it over, with symbols `Y`. -/
structure LkOk (o : Opts) (Y : Sym K) (l : Lk K) : Prop where
  known : l.known = true
  early : l.early = false
  count : l.countReachable = true
  show_ : l.showReachable = o.showReachable
  one : ¬ (l.reachable = true ∧ l.maybe = true)
  supp : l.supp = Y.supp (leakType o l) l.key
  fp : l.fp = Y.fp (leakType o l) l.key

/-- Counted as unsuppressed in the given set. -/
def Sym.inSet (Y : Sym K) (o : Opts) (b : Bool) (p : Nat × K) : Bool :=
  (Y.eff o p.1 p.2).isNone && Y.fp p.1 p.2 == b

/-- What happens before the last scan: errors, and leak scans with a summary (a nudge, or the scan
after a fuzzing iteration). -/
inductive Op (K : Type)
  | err (e : Ev K)
  | nudge (ls : List (Lk K))

/-- A leak scan. -/
def scan (o : Opts) (s : St K) (ls : List (Lk K)) : St K := ls.foldl (reportLeak o) s

/-- One operation (drmemory/drmemory.c:1580-1588, drmemory/fuzzer.c:1612-1620). -/
def Op.run (o : Opts) (s : St K) : Op K → St K
  | .err e => reportError o s e
  | .nudge ls => revert (scan o (checkpoint s) ls)

/-- The kinds of leaks found before. -/
def found (o : Opts) : List (Op K) → Finset (Nat × K)
  | [] => ∅
  | .err _ :: l => found o l
  | .nudge ls :: l => (ls.map (kind o)).toFinset ∪ found o l

/-! ## The table as a map -/

theorem find_key {s : St K} {t : Nat} {k : K} {x : Err K} (h : s.find t k = some x) :
    x.typ = t ∧ x.key = k :=
  Err.is_iff.1 (List.find?_some (p := fun y : Err K => y.is t k) h)

theorem find_map (l : List (Err K)) (e : Err K) (t : Nat) (k : K) :
    (l.map fun x => if x.is e.typ e.key then e else x).find? (·.is t k)
      = if t = e.typ ∧ k = e.key then (if (l.find? (·.is t k)).isSome then some e else none)
        else l.find? (·.is t k) := by
  induction l with
  | nil => simp
  | cons a l ih =>
    rw [List.map_cons, List.find?_cons, List.find?_cons, ih]
    by_cases ha : a.is e.typ e.key = true
    · rw [if_pos ha]
      have ha' := Err.is_iff.1 ha
      by_cases hk : t = e.typ ∧ k = e.key
      · have h1 : e.is t k = true := Err.is_iff.2 ⟨hk.1.symm, hk.2.symm⟩
        have h2 : a.is t k = true := by rw [hk.1, hk.2]; exact ha
        simp only [h1, h2, if_pos hk, Option.isSome_some, if_true]
      · have h1 : e.is t k = false := by
          cases h : e.is t k with
          | false => rfl
          | true =>
            have := Err.is_iff.1 h
            exact absurd ⟨this.1.symm, this.2.symm⟩ hk
        have h2 : a.is t k = false := by
          cases h : a.is t k with
          | false => rfl
          | true =>
            have := Err.is_iff.1 h
            exact absurd ⟨this.1.symm.trans ha'.1, this.2.symm.trans ha'.2⟩ hk
        simp only [h1, h2, if_neg hk]
    · rw [if_neg ha]
      by_cases hk : t = e.typ ∧ k = e.key
      · have h2 : a.is t k = false := by
          rw [hk.1, hk.2]; simpa using ha
        simp only [h2, if_pos hk]
      · simp only [if_neg hk]

theorem find_put (s : St K) (e : Err K) (t : Nat) (k : K) :
    (s.put e).find t k
      = if t = e.typ ∧ k = e.key then (if (s.find t k).isSome then some e else none)
        else s.find t k := find_map s.tbl e t k

theorem find_put_same (s : St K) (e : Err K) (h : (s.find e.typ e.key).isSome) (t : Nat) (k : K) :
    (s.put e).find t k = if t = e.typ ∧ k = e.key then some e else s.find t k := by
  rw [find_put]
  split
  · rename_i hk
    rw [hk.1, hk.2, if_pos h]
  · rfl

/-- The entry that `record` returns. -/
def recEntry (s : St K) (t : Nat) (k : K) : Err K :=
  let x := (s.find t k).getD { typ := t, key := k }
  { x with count := x.count + 1 }

theorem record_eq (s : St K) (t : Nat) (k : K) : (record s t k).2 = recEntry s t k := by
  unfold record recEntry
  cases h : s.find t k <;> rfl

theorem recEntry_key (s : St K) (t : Nat) (k : K) :
    (recEntry s t k).typ = t ∧ (recEntry s t k).key = k := by
  unfold recEntry
  cases h : s.find t k with
  | none => exact ⟨rfl, rfl⟩
  | some x =>
    have := find_key h
    exact ⟨this.1, this.2⟩

theorem record_find (s : St K) (t : Nat) (k : K) (t' : Nat) (k' : K) :
    (record s t k).1.find t' k'
      = if t' = t ∧ k' = k then some (recEntry s t k) else s.find t' k' := by
  have hk := recEntry_key s t k
  have key : ∀ s1 : St K, (∀ t' k', s1.find t' k' = if t' = t ∧ k' = k
        then some ((s.find t k).getD { typ := t, key := k }) else s.find t' k') →
      (s1.put (recEntry s t k)).find t' k'
        = if t' = t ∧ k' = k then some (recEntry s t k) else s.find t' k' := by
    intro s1 hs1
    rw [find_put_same, hk.1, hk.2]
    · split
      · rfl
      · rename_i hne
        rw [hs1, if_neg hne]
    · rw [hk.1, hk.2, hs1, if_pos ⟨rfl, rfl⟩]; rfl
  have : (record s t k).1.find t' k' = ((match s.find t k with
      | some _ => s
      | none => { s with tbl := s.tbl ++ [({ typ := t, key := k } : Err K)] }).put
        (recEntry s t k)).find t' k' := by
    unfold record recEntry
    cases h : s.find t k with
    | none => simp only []; split <;> rfl
    | some x => simp only []; split <;> rfl
  rw [this]
  apply key
  intro t' k'
  cases h : s.find t k with
  | some x =>
    simp only []
    split
    · rename_i hk'
      rw [hk'.1, hk'.2, h]; rfl
    · rfl
  | none =>
    simp only []
    unfold St.find
    rw [List.find?_append]
    split
    · rename_i hk'
      have : List.find? (fun x => x.is t' k') s.tbl = none := by
        rw [hk'.1, hk'.2]; exact h
      rw [this]
      simp [Err.is, hk'.1, hk'.2]
    · rename_i hne
      have : List.find? (fun x : Err K => x.is t' k') [{ typ := t, key := k }] = none := by
        rw [List.find?_eq_none]
        intro x hx hc
        have hx' : x = { typ := t, key := k } := by simpa using hx
        rw [hx'] at hc
        have := Err.is_iff.1 hc
        exact hne ⟨this.1.symm, this.2.symm⟩
      rw [this, Option.or_none]

theorem record_rest (s : St K) (t : Nat) (k : K) :
    (record s t k).1 = { s with
      tbl := (record s t k).1.tbl
      total := if (recEntry s t k).supp.isNone
        then bump2 s.total (recEntry s t k).potential t 1 else s.total } := by
  unfold record recEntry
  cases h : s.find t k with
  | none => rfl
  | some x =>
    simp only [Option.getD_some]
    cases h2 : x.supp <;> rfl

theorem revert_find (s : St K) (t : Nat) (k : K) :
    (revert s).find t k
      = (s.find t k).map fun e => if isLeak t then { e with count := 0 } else e := by
  unfold revert St.find
  simp only []
  induction s.tbl with
  | nil => rfl
  | cons a l ih =>
    rw [List.map_cons, List.find?_cons, List.find?_cons, ih]
    have h : (if isLeak a.typ then { a with count := 0 } else a : Err K).is t k = a.is t k := by
      unfold Err.is; split <;> rfl
    rw [h]
    cases hc : a.is t k with
    | true =>
      have := (Err.is_iff.1 hc).1
      simp [this]
    | false => rfl

/-! ## The invariant -/

/-- The bytes of the leaks with a property. -/
def bytesOf (c : List (Lk K)) (P : Lk K → Bool) : Nat :=
  ((c.filter P).map fun l => l.size + l.indirect).sum

/-- The set in which a kind of leaks found again is counted: a leak that has a number is counted as
potential. -/
def uniqSet (o : Opts) (Y : Sym K) (F : Finset (Nat × K)) (p : Nat × K) : Bool :=
  if p ∈ F ∧ hidden o p.1 = false then true else Y.fp p.1 p.2

/-- The kinds counted as unique in a set. -/
def uniqKinds (o : Opts) (Y : Sym K) (F : Finset (Nat × K)) (c : List (Lk K)) (b : Bool) (t : Nat) :
    Finset (Nat × K) :=
  (c.map (kind o)).toFinset.filter fun p =>
    p.1 = t ∧ (Y.eff o p.1 p.2).isNone = true ∧ uniqSet o Y F p = b

/-- The state in a scan that has come across `c`, where `F` was found by earlier scans and `n`
bounds the numbers given. -/
structure LInv (o : Opts) (Y : Sym K) (F : Finset (Nat × K)) (c : List (Lk K)) (n : Nat) (s : St K) :
    Prop where
  absent : ∀ t k, isLeak t = true → (t, k) ∉ F → (t, k) ∉ c.map (kind o) → s.find t k = none
  ent : ∀ t k, isLeak t = true → (t, k) ∈ F ∨ (t, k) ∈ c.map (kind o) → ∃ x, s.find t k = some x ∧
    x.count = BitVec.ofNat 32 (c.countP fun l => kind o l = (t, k)) ∧ x.supp = Y.eff o t k ∧
    x.potential = ((Y.eff o t k).isNone && Y.fp t k) ∧
    ((Y.eff o t k).isNone = true → (x.id = 0 ↔ hidden o t = true))
  total : ∀ b t, isLeak t = true → s.total b t
    = BitVec.ofNat 32 (c.countP fun l => leakType o l = t && Y.inSet o b (kind o l))
  bytes : ∀ b t, isLeak t = true → s.bytes b t
    = BitVec.ofNat 32 (bytesOf c fun l => leakType o l = t && Y.inSet o b (kind o l))
  uniq : ∀ b t, isLeak t = true → s.uniq b t = BitVec.ofNat 32 (uniqKinds o Y F c b t).card
  leaks : s.totalLeaks false + s.totalLeaks true = BitVec.ofNat 32 c.length
  supp : ∀ b, s.suppLeaks b
    = BitVec.ofNat 32 (c.countP fun l => (Y.eff o (leakType o l) l.key).any fun p => p.2 = b)
  ids : s.errorId.toNat ≤ n ∧ s.errorIdPot.toNat ≤ n

omit [DecidableEq K] in
theorem leakType_isLeak {o : Opts} {Y : Sym K} {l : Lk K} (h : LkOk o Y l) :
    isLeak (leakType o l) = true ∧ leakType o l ≠ MAXVAL := by
  unfold leakType
  rw [h.known, h.early]
  simp only [Bool.not_false, Bool.and_true, Bool.not_true, Bool.false_and, Bool.false_eq_true,
    if_false]
  split
  · decide
  · split <;> decide

omit [DecidableEq K] in
theorem rep_eq {o : Opts} {Y : Sym K} {l : Lk K} (h : LkOk o Y l) :
    (!((l.maybe && !o.possibleLeaks) || (l.reachable && !o.showReachable)))
      = !hidden o (leakType o l) := by
  unfold leakType hidden
  rw [h.known, h.early]
  have h1 := h.one
  cases hr : l.reachable <;> cases hm : l.maybe <;> cases o.possibleLeaks <;>
    cases o.showReachable <;> first | rfl | exact absurd ⟨hr, hm⟩ h1

omit [DecidableEq K] in
theorem eff_eq {o : Opts} {Y : Sym K} {l : Lk K} (h : LkOk o Y l) :
    (if l.reachable && !l.showReachable then none else l.supp)
      = Y.eff o (leakType o l) l.key := by
  unfold Sym.eff
  rw [← h.supp, h.show_]
  have : leakType o l = REACHABLE ↔ l.reachable = true := by
    unfold leakType
    rw [h.known, h.early]
    cases l.reachable <;> cases l.maybe <;> cases o.ignoreEarlyLeaks <;> decide
  cases hr : l.reachable with
  | true =>
    have := this.2 hr
    cases hs : o.showReachable <;> simp [this]
  | false =>
    have h2 : ¬ leakType o l = REACHABLE := fun hc => by rw [this.1 hc] at hr; cases hr
    simp [h2]

omit [DecidableEq K] in
theorem count_snoc (c : List (Lk K)) (l : Lk K) (P : Lk K → Bool) :
    (c ++ [l]).countP P = c.countP P + (if P l then 1 else 0) := by
  rw [List.countP_append, List.countP_singleton]

omit [DecidableEq K] in
theorem bytes_snoc (c : List (Lk K)) (l : Lk K) (P : Lk K → Bool) :
    bytesOf (c ++ [l]) P = bytesOf c P + (if P l then l.size + l.indirect else 0) := by
  unfold bytesOf
  rw [List.filter_append, List.map_append, List.sum_append]
  congr 1
  by_cases h : P l = true
  · simp [h]
  · simp [h]

theorem uniq_old (o : Opts) (Y : Sym K) (F : Finset (Nat × K)) (c : List (Lk K)) (l : Lk K)
    (h : kind o l ∈ c.map (kind o)) (b : Bool) (t : Nat) :
    uniqKinds o Y F (c ++ [l]) b t = uniqKinds o Y F c b t := by
  unfold uniqKinds
  congr 1
  ext p
  simp only [List.map_append, List.map_cons, List.map_nil, List.mem_toFinset, List.mem_append,
    List.mem_singleton]
  constructor
  · rintro (h1 | h1)
    · exact h1
    · rw [h1]; exact h
  · exact Or.inl

theorem uniq_new (o : Opts) (Y : Sym K) (F : Finset (Nat × K)) (c : List (Lk K)) (l : Lk K)
    (h : kind o l ∉ c.map (kind o)) (b : Bool) (t : Nat) :
    (uniqKinds o Y F (c ++ [l]) b t).card = (uniqKinds o Y F c b t).card +
      (if leakType o l = t ∧ (Y.eff o (leakType o l) l.key).isNone = true ∧
        uniqSet o Y F (kind o l) = b then 1 else 0) := by
  have hins : (( c ++ [l]).map (kind o)).toFinset = insert (kind o l) (c.map (kind o)).toFinset := by
    ext p
    simp only [List.map_append, List.map_cons, List.map_nil, List.mem_toFinset, List.mem_append,
      List.mem_singleton, Finset.mem_insert]
    constructor
    · rintro (h1 | h1)
      · exact Or.inr h1
      · exact Or.inl h1
    · rintro (h1 | h1)
      · exact Or.inr h1
      · exact Or.inl h1
  unfold uniqKinds
  rw [hins, Finset.filter_insert]
  have hk1 : (kind o l).1 = leakType o l := rfl
  have hk2 : (kind o l).2 = l.key := rfl
  rw [hk1, hk2]
  split
  · rw [Finset.card_insert_of_notMem]
    intro hc
    exact h (List.mem_toFinset.1 (Finset.mem_filter.1 hc).1)
  · rfl

/-- What one leak has to change. -/
theorem LInv.snoc {o : Opts} {Y : Sym K} {F : Finset (Nat × K)} {c : List (Lk K)} {n : Nat}
    {s s' : St K} {l : Lk K} (hi : LInv o Y F c n s) (x : Err K) (b0 : Bool)
    (hb0 : (Y.eff o (leakType o l) l.key).isNone = true → b0 = Y.fp (leakType o l) l.key)
    (hf : ∀ t k, s'.find t k
      = if t = leakType o l ∧ k = l.key then some x else s.find t k)
    (hc : x.count = BitVec.ofNat 32 (c.countP (fun y => kind o y = kind o l) + 1))
    (hs : x.supp = Y.eff o (leakType o l) l.key)
    (hp : x.potential = ((Y.eff o (leakType o l) l.key).isNone && Y.fp (leakType o l) l.key))
    (hid : (Y.eff o (leakType o l) l.key).isNone = true →
      (x.id = 0 ↔ hidden o (leakType o l) = true))
    (htot : ∀ b t, s'.total b t = if (Y.eff o (leakType o l) l.key).isNone = true ∧ b = b0 ∧
      t = leakType o l then s.total b t + 1 else s.total b t)
    (hby : ∀ b t, s'.bytes b t = if (Y.eff o (leakType o l) l.key).isNone = true ∧ b = b0 ∧
      t = leakType o l then s.bytes b t + BitVec.ofNat 32 (l.size + l.indirect) else s.bytes b t)
    (huq : ∀ b t, s'.uniq b t = if kind o l ∉ c.map (kind o) ∧
      (Y.eff o (leakType o l) l.key).isNone = true ∧ b = uniqSet o Y F (kind o l) ∧
      t = leakType o l then s.uniq b t + 1 else s.uniq b t)
    (hlk : s'.totalLeaks false + s'.totalLeaks true
      = s.totalLeaks false + s.totalLeaks true + 1)
    (hsl : ∀ b, s'.suppLeaks b
      = if ((Y.eff o (leakType o l) l.key).any fun p => p.2 = b) = true then s.suppLeaks b + 1
        else s.suppLeaks b)
    (hids : s'.errorId.toNat ≤ n + 1 ∧ s'.errorIdPot.toNat ≤ n + 1) :
    LInv o Y F (c ++ [l]) (n + 1) s' where
  absent := by
    intro t k ht h1 h2
    rw [List.map_append, List.mem_append, not_or] at h2
    rw [hf, if_neg, hi.absent t k ht h1 h2.1]
    intro hc
    apply h2.2
    rw [hc.1, hc.2]
    exact List.mem_singleton.2 rfl
  ent := by
    intro t k ht hm
    by_cases hk : t = leakType o l ∧ k = l.key
    · refine ⟨x, ?_, ?_, ?_, ?_, ?_⟩
      · rw [hf, if_pos hk]
      · rw [count_snoc, if_pos (by rw [hk.1, hk.2]; exact decide_eq_true rfl), hc, hk.1, hk.2]; rfl
      · rw [hk.1, hk.2]; exact hs
      · rw [hk.1, hk.2]; exact hp
      · rw [hk.1, hk.2]; exact hid
    · have hkn : ¬ kind o l = (t, k) := by
        intro hc
        unfold kind at hc
        injection hc with h1 h2
        exact hk ⟨h1.symm, h2.symm⟩
      have hm' : (t, k) ∈ F ∨ (t, k) ∈ c.map (kind o) := by
        rcases hm with hm | hm
        · exact Or.inl hm
        · rw [List.map_append, List.mem_append] at hm
          rcases hm with hm | hm
          · exact Or.inr hm
          · exact absurd (List.mem_singleton.1 hm).symm hkn
      obtain ⟨y, h1, h2, h3⟩ := hi.ent t k ht hm'
      refine ⟨y, ?_, ?_, h3⟩
      · rw [hf, if_neg hk, h1]
      · rw [count_snoc, if_neg (by simpa using hkn), h2]; rfl
  total := by
    intro b t ht
    rw [count_snoc, htot, hi.total b t ht]
    by_cases h : (Y.eff o (leakType o l) l.key).isNone = true ∧ b = b0 ∧ t = leakType o l
    · rw [if_pos h, if_pos, ofNat_succ]
      have hb := hb0 h.1
      simp only [Sym.inSet, kind, h.1, h.2.1, h.2.2, hb, beq_self_eq_true,
        Bool.and_true, decide_true]
    · rw [if_neg h, if_neg]; rfl
      intro hc
      simp only [Sym.inSet, kind, Bool.and_eq_true, decide_eq_true_eq, beq_iff_eq] at hc
      exact h ⟨hc.2.1, hc.2.2.symm.trans (hb0 hc.2.1).symm, hc.1.symm⟩
  bytes := by
    intro b t ht
    rw [bytes_snoc, hby, hi.bytes b t ht]
    by_cases h : (Y.eff o (leakType o l) l.key).isNone = true ∧ b = b0 ∧ t = leakType o l
    · rw [if_pos h, if_pos, ← BitVec.ofNat_add]
      have hb := hb0 h.1
      simp only [Sym.inSet, kind, h.1, h.2.1, h.2.2, hb, beq_self_eq_true,
        Bool.and_true, decide_true]
    · rw [if_neg h, if_neg]; rfl
      intro hc
      simp only [Sym.inSet, kind, Bool.and_eq_true, decide_eq_true_eq, beq_iff_eq] at hc
      exact h ⟨hc.2.1, hc.2.2.symm.trans (hb0 hc.2.1).symm, hc.1.symm⟩
  uniq := by
    intro b t ht
    rw [huq, hi.uniq b t ht]
    by_cases hm : kind o l ∈ c.map (kind o)
    · rw [if_neg (fun h => h.1 hm), uniq_old o Y F c l hm]
    · rw [uniq_new o Y F c l hm]
      by_cases h : (Y.eff o (leakType o l) l.key).isNone = true ∧ b = uniqSet o Y F (kind o l) ∧
          t = leakType o l
      · rw [if_pos ⟨hm, h⟩, if_pos ⟨h.2.2.symm, h.1, h.2.1.symm⟩, ofNat_succ]
      · rw [if_neg (fun hc => h hc.2), if_neg (fun hc => h ⟨hc.2.1, hc.2.2.symm, hc.1.symm⟩)]
        rfl
  leaks := by
    rw [hlk, hi.leaks, List.length_append, List.length_singleton, ofNat_succ]
  supp := by
    intro b
    rw [hsl, hi.supp b, count_snoc]
    split
    · rw [ofNat_succ]
    · rfl
  ids := hids

theorem count_kind_pos {o : Opts} {c : List (Lk K)} {l : Lk K} :
    kind o l ∈ c.map (kind o) ↔ 1 ≤ c.countP fun y => kind o y = kind o l := by
  rw [Nat.succ_le_iff, List.countP_pos_iff, List.mem_map]
  simp

theorem toNat_small {n : Nat} (h : n < 2 ^ 32) : (BitVec.ofNat 32 n).toNat = n := by
  rw [BitVec.toNat_ofNat, Nat.mod_eq_of_lt h]

/-- A number that has just been given is not zero. -/
theorem inc_ne {x : U32} {n : Nat} (h : x.toNat ≤ n) (hn : n + 1 < 2 ^ 32) :
    x + 1 ≠ 0 ∧ (x + 1).toNat ≤ n + 1 := by
  have h1 : (x + 1).toNat = x.toNat + 1 := by
    rw [BitVec.toNat_add]
    have : (1 : U32).toNat = 1 := rfl
    rw [this, Nat.mod_eq_of_lt (by omega)]
  refine ⟨fun hc => ?_, by omega⟩
  rw [hc] at h1
  have : (0 : U32).toNat = 0 := rfl
  omega

theorem acquire_find (s : St K) (e : Err K) (h : (s.find e.typ e.key).isSome) (t : Nat) (k : K) :
    (acquire s e).1.find t k
      = if t = e.typ ∧ k = e.key then some (acquire s e).2 else s.find t k := by
  have key : ∀ (s1 : St K) (e1 : Err K), s1.tbl = s.tbl → e1.typ = e.typ → e1.key = e.key →
      (s1.put e1).find t k = if t = e.typ ∧ k = e.key then some e1 else s.find t k := by
    intro s1 e1 h1 h2 h3
    have hf : ∀ t k, s1.find t k = s.find t k := fun t k => by unfold St.find; rw [h1]
    rw [find_put_same, h2, h3, hf]
    rw [h2, h3, hf]; exact h
  unfold acquire
  simp only []
  apply key
  · split <;> rfl
  · rfl
  · rfl

/-- One leak of a scan. -/
theorem leak_step {o : Opts} {Y : Sym K} {F : Finset (Nat × K)} {c : List (Lk K)} {n : Nat}
    {s : St K} {l : Lk K} (hi : LInv o Y F c n s) (hok : LkOk o Y l) (hcl : o.checkLeaks = true)
    (hgood : ∀ t k, hidden o t = true → (Y.eff o t k).isNone = true → Y.fp t k = false)
    (hmax : 0 ≤ o.reportLeakMax → c.length < o.reportLeakMax.toNat)
    (hlen : c.length + 1 < 2 ^ 32) (hn : n + 1 < 2 ^ 32) :
    LInv o Y F (c ++ [l]) (n + 1) (reportLeak o s l) := by
  obtain ⟨hlt, hnm⟩ := leakType_isLeak hok
  unfold reportLeak
  rw [if_neg (by rw [hok.count]; simp), if_neg (by rw [hok.known]; simp), if_neg]
  swap
  · rintro ⟨h1, h2⟩
    rw [hi.leaks, toNat_small (by omega)] at h2
    have := hmax h1
    omega
  dsimp only
  rw [if_neg hnm, if_pos hcl]
  have heff := eff_eq hok
  have hrep := rep_eq hok
  have hfp := hok.fp
  have hgood' := hgood (leakType o l) l.key
  have hcnt_le : c.countP (fun y => kind o y = kind o l) ≤ c.length := List.countP_le_length
  -- the entry after `record`
  let s0 : St K := { s with totalLeaks := bump s.totalLeaks false 1 }
  have hs0f : ∀ t k, s0.find t k = s.find t k := fun _ _ => rfl
  have hleak1 : s0.totalLeaks false + s0.totalLeaks true
      = s.totalLeaks false + s.totalLeaks true + 1 := by
    show (s.totalLeaks false + 1) + s.totalLeaks true = _
    rw [BitVec.add_assoc, BitVec.add_comm 1, ← BitVec.add_assoc]
  have hrf := record_find s0 (leakType o l) l.key
  have hrr := record_rest s0 (leakType o l) l.key
  have hre := record_eq s0 (leakType o l) l.key
  have hxk := recEntry_key s0 (leakType o l) l.key
  -- known or not
  have hx : (kind o l ∈ F ∨ kind o l ∈ c.map (kind o)) ∧
        (recEntry s0 (leakType o l) l.key).count
          = BitVec.ofNat 32 (c.countP (fun y => kind o y = kind o l) + 1) ∧
        (recEntry s0 (leakType o l) l.key).supp = Y.eff o (leakType o l) l.key ∧
        (recEntry s0 (leakType o l) l.key).potential
          = ((Y.eff o (leakType o l) l.key).isNone && Y.fp (leakType o l) l.key) ∧
        ((Y.eff o (leakType o l) l.key).isNone = true →
          ((recEntry s0 (leakType o l) l.key).id = 0 ↔ hidden o (leakType o l) = true)) ∨
      (kind o l ∉ F ∧ kind o l ∉ c.map (kind o)) ∧
        (recEntry s0 (leakType o l) l.key).count
          = BitVec.ofNat 32 (c.countP (fun y => kind o y = kind o l) + 1) ∧
        (recEntry s0 (leakType o l) l.key).supp = none ∧
        (recEntry s0 (leakType o l) l.key).potential = false ∧
        (recEntry s0 (leakType o l) l.key).id = 0 := by
    by_cases hm : kind o l ∈ F ∨ kind o l ∈ c.map (kind o)
    · left
      obtain ⟨x, h1, h2, h3, h4, h5⟩ := hi.ent _ _ hlt hm
      refine ⟨hm, ?_⟩
      unfold recEntry
      rw [hs0f, h1]
      refine ⟨?_, h3, h4, h5⟩
      show x.count + 1 = _
      rw [h2, ofNat_succ]; rfl
    · right
      rw [not_or] at hm
      refine ⟨hm, ?_⟩
      have h1 := hi.absent _ _ hlt hm.1 hm.2
      have h0 : c.countP (fun y => kind o y = kind o l) = 0 := by
        have := count_kind_pos (o := o) (c := c) (l := l)
        by_contra hc
        exact hm.2 (this.2 (by omega))
      unfold recEntry
      rw [hs0f, h1, h0]
      exact ⟨rfl, rfl, rfl, rfl⟩
  change LInv o Y F (c ++ [l]) (n + 1) (leakChecked o s0 l (leakType o l))
  unfold leakChecked
  dsimp only
  rw [hre, heff]
  generalize (record s0 (leakType o l) l.key).1 = s1 at hrf hrr
  generalize recEntry s0 (leakType o l) l.key = x at hrf hrr hxk hx
  have hfind1 : ∀ t k, s1.find t k = if t = leakType o l ∧ k = l.key then some x else s.find t k :=
    hrf
  have htot1 : s1.total = if x.supp.isNone then bump2 s.total x.potential (leakType o l) 1
      else s.total := by rw [hrr]
  have huq1 : s1.uniq = s.uniq := by rw [hrr]
  have hby1 : s1.bytes = s.bytes := by rw [hrr]
  have hlk1 : s1.totalLeaks false + s1.totalLeaks true
      = s.totalLeaks false + s.totalLeaks true + 1 := by rw [hrr]; exact hleak1
  have hsl1 : s1.suppLeaks = s.suppLeaks := by rw [hrr]
  have hid1 : s1.errorId = s.errorId ∧ s1.errorIdPot = s.errorIdPot := by rw [hrr]; exact ⟨rfl, rfl⟩
  have hids1 : s1.errorId.toNat ≤ n + 1 ∧ s1.errorIdPot.toNat ≤ n + 1 := by
    rw [hid1.1, hid1.2]
    have := hi.ids
    omega
  clear hrf hrr hre hleak1
  clear_value s0
  clear hs0f s0
  generalize heq : Y.eff o (leakType o l) l.key = E at heff hx hgood' ⊢
  generalize hft : Y.fp (leakType o l) l.key = f at hfp hx hgood' ⊢
  by_cases hgt : x.count > 1
  · -- a duplicate within this scan
    rw [if_pos hgt]
    have hmem : kind o l ∈ c.map (kind o) := by
      rw [count_kind_pos]
      have hc : x.count = BitVec.ofNat 32 (c.countP (fun y => kind o y = kind o l) + 1) := by
        rcases hx with h | h
        · exact h.2.1
        · exact h.2.1
      have : (1 : U32).toNat < x.count.toNat := hgt
      rw [hc, toNat_small (by omega)] at this
      have h1 : (1 : U32).toNat = 1 := rfl
      omega
    obtain ⟨_, hxc, hxs, hxp, hxi⟩ : (kind o l ∈ F ∨ kind o l ∈ c.map (kind o)) ∧
        x.count = BitVec.ofNat 32 (c.countP (fun y => kind o y = kind o l) + 1) ∧
        x.supp = E ∧ x.potential = (E.isNone && f) ∧
        (E.isNone = true → (x.id = 0 ↔ hidden o (leakType o l) = true)) := by
      rcases hx with h | h
      · exact h
      · exact absurd hmem h.1.2
    cases E with
    | some p =>
      rw [hxs]
      refine hi.snoc x f (by rw [heq]; intro h; cases h) hfind1 hxc (hxs.trans heq.symm)
        (by rw [heq, hft]; exact hxp) (by rw [heq]; exact hxi) ?_ ?_ ?_ hlk1 ?_ hids1
      · intro b t
        rw [heq, if_neg (by simp)]
        show s1.total b t = _
        rw [htot1, hxs]; rfl
      · intro b t
        rw [heq, if_neg (by simp)]
        show s1.bytes b t = _
        rw [hby1]
      · intro b t
        rw [if_neg (fun h => h.1 hmem)]
        show s1.uniq b t = _
        rw [huq1]
      · intro b
        show (if b = p.2 then s1.suppLeaks b + 1 else s1.suppLeaks b) = _
        rw [heq, hsl1]
        by_cases hb : b = p.2
        · rw [if_pos hb, if_pos (by simp [hb])]
        · rw [if_neg hb, if_neg (by simpa using fun h => hb h.symm)]
    | none =>
      rw [hxs]
      refine hi.snoc x f (by rw [hft]; intro _; rfl) hfind1 hxc (hxs.trans heq.symm)
        (by rw [heq, hft]; exact hxp) (by rw [heq]; exact hxi) ?_ ?_ ?_ hlk1 ?_ hids1
      · intro b t
        rw [heq]
        show s1.total b t = _
        rw [htot1, hxs, hxp]
        show bump2 s.total f (leakType o l) 1 b t = _
        unfold bump2
        by_cases h : b = f ∧ t = leakType o l
        · rw [if_pos h, if_pos ⟨rfl, h⟩]
        · rw [if_neg h, if_neg (fun hc => h hc.2)]
      · intro b t
        rw [heq, ← hby1]
        show bump2 s1.bytes x.potential (leakType o l) _ b t = _
        rw [hxp]
        unfold bump2
        by_cases h : b = f ∧ t = leakType o l
        · rw [if_pos (show b = (Option.isNone (none : Option (Nat × Bool)) && f) ∧ _ from h),
            if_pos ⟨rfl, h⟩]
        · rw [if_neg (show ¬ (b = (Option.isNone (none : Option (Nat × Bool)) && f) ∧ _) from h),
            if_neg (fun hc => h hc.2)]
      · intro b t
        rw [if_neg (fun h => h.1 hmem)]
        show s1.uniq b t = _
        rw [huq1]
      · intro b
        rw [heq]
        show s1.suppLeaks b = _
        rw [hsl1]; rfl
  · rw [if_neg hgt]
    have hxc : x.count = BitVec.ofNat 32 (c.countP (fun y => kind o y = kind o l) + 1) := by
      rcases hx with h | h
      · exact h.2.1
      · exact h.2.1
    have hnmem : kind o l ∉ c.map (kind o) := by
      intro hc
      rw [count_kind_pos] at hc
      apply hgt
      show (1 : U32).toNat < x.count.toNat
      rw [hxc, toNat_small (by omega)]
      have h1 : (1 : U32).toNat = 1 := rfl
      omega
    have hsome1 : ∀ e : Err K, e.typ = leakType o l → e.key = l.key →
        (s1.find e.typ e.key).isSome := by
      intro e h1 h2
      rw [h1, h2, hfind1, if_pos ⟨rfl, rfl⟩]; rfl
    cases E with
    | some p =>
      -- suppressed
      show LInv o Y F (c ++ [l]) (n + 1) (leakSupp s1 x l (leakType o l) p)
      have hfl : ∀ t k, (leakSupp s1 x l (leakType o l) p).find t k
          = if t = leakType o l ∧ k = l.key then some { x with supp := some p }
            else s.find t k := by
        intro t k
        have h1 : (leakSupp s1 x l (leakType o l) p).find t k
            = (s1.put { x with supp := some p }).find t k := by
          unfold leakSupp; simp only []; split <;> rfl
        rw [h1, find_put_same s1 { x with supp := some p } (hsome1 _ hxk.1 hxk.2)]
        show (if t = x.typ ∧ k = x.key then _ else _) = _
        rw [hxk.1, hxk.2, hfind1]
        split <;> rfl
      have hpot : x.potential = false := by
        rcases hx with h | h
        · exact h.2.2.2.1
        · exact h.2.2.2.1
      refine hi.snoc { x with supp := some p } f (by rw [heq]; intro h; cases h) hfl hxc
        heq.symm (by rw [heq]; exact hpot)
        (by rw [heq]; intro h; cases h) ?_ ?_ ?_ ?_ ?_ ?_
      · intro b t
        rw [heq, if_neg (by simp)]
        cases hxs : x.supp with
        | some q =>
          have : (leakSupp s1 x l (leakType o l) p).total b t = s1.total b t := by
            unfold leakSupp; simp only [hxs]; rfl
          rw [this, htot1, hxs]; rfl
        | none =>
          have : (leakSupp s1 x l (leakType o l) p).total b t
              = bump2 s1.total false (leakType o l) (-1) b t := by
            unfold leakSupp; simp only [hxs]; rfl
          rw [this, htot1, hxs, hpot]
          show bump2 (bump2 s.total false (leakType o l) 1) false (leakType o l) (-1) b t = _
          unfold bump2
          by_cases hb : b = false ∧ t = leakType o l
          · rw [if_pos hb, if_pos hb, U32.add_neg]
          · rw [if_neg hb, if_neg hb]
      · intro b t
        rw [heq, if_neg (by simp)]
        have : (leakSupp s1 x l (leakType o l) p).bytes b t = s1.bytes b t := by
          unfold leakSupp; simp only []; split <;> rfl
        rw [this, hby1]
      · intro b t
        rw [heq, if_neg (by simp)]
        have : (leakSupp s1 x l (leakType o l) p).uniq b t = s1.uniq b t := by
          unfold leakSupp; simp only []; split <;> rfl
        rw [this, huq1]
      · have : (leakSupp s1 x l (leakType o l) p).totalLeaks = s1.totalLeaks := by
          unfold leakSupp; simp only []; split <;> rfl
        rw [this]; exact hlk1
      · intro b
        have : (leakSupp s1 x l (leakType o l) p).suppLeaks b
            = if b = p.2 then s1.suppLeaks b + 1 else s1.suppLeaks b := by
          unfold leakSupp; simp only []; split <;> rfl
        rw [this, heq, hsl1]
        by_cases hb : b = p.2
        · rw [if_pos hb, if_pos (by simp [hb])]
        · rw [if_neg hb, if_neg (by simpa using fun h => hb h.symm)]
      · have h1 : (leakSupp s1 x l (leakType o l) p).errorId = s1.errorId := by
          unfold leakSupp; simp only []; split <;> rfl
        have h2 : (leakSupp s1 x l (leakType o l) p).errorIdPot = s1.errorIdPot := by
          unfold leakSupp; simp only []; split <;> rfl
        rw [h1, h2]; exact hids1
    | none =>
      show LInv o Y F (c ++ [l]) (n + 1)
        (print (leakShown o s1 x l (leakType o l)).1 (leakShown o s1 x l (leakType o l)).2.1
          (leakShown o s1 x l (leakType o l)).2.2)
      have hprint : ∀ (z : St K) (e : Err K) (b : Bool) (m : Nat),
          LInv o Y F (c ++ [l]) m z → LInv o Y F (c ++ [l]) m (print z e b) := by
        intro z e b m hz
        unfold print
        split
        · exact { hz with }
        · exact hz
      apply hprint
      -- the effect on the bytes is the same everywhere
      have hbytes : ∀ b t, bump2 s1.bytes f (leakType o l) (BitVec.ofNat 32 (l.size + l.indirect)) b t
          = if (Y.eff o (leakType o l) l.key).isNone = true ∧ b = f ∧ t = leakType o l
            then s.bytes b t + BitVec.ofNat 32 (l.size + l.indirect) else s.bytes b t := by
        intro b t
        rw [heq, hby1]
        unfold bump2
        by_cases h : b = f ∧ t = leakType o l
        · rw [if_pos h, if_pos ⟨rfl, h⟩]
        · rw [if_neg h, if_neg (fun hc => h hc.2)]
      have huniq : ∀ b0, b0 = uniqSet o Y F (kind o l) → ∀ b t, bump2 s1.uniq b0 (leakType o l) 1 b t
          = if kind o l ∉ c.map (kind o) ∧ (Y.eff o (leakType o l) l.key).isNone = true ∧
              b = uniqSet o Y F (kind o l) ∧ t = leakType o l then s.uniq b t + 1
            else s.uniq b t := by
        intro b0 hb0 b t
        rw [heq, huq1, ← hb0]
        unfold bump2
        by_cases h : b = b0 ∧ t = leakType o l
        · rw [if_pos h, if_pos ⟨hnmem, rfl, h⟩]
        · rw [if_neg h, if_neg (fun hc => h hc.2.2)]
      have htotal : ∀ b0 b t, bump2 s.total b0 (leakType o l) 1 b t
          = if (Y.eff o (leakType o l) l.key).isNone = true ∧ b = b0 ∧ t = leakType o l
            then s.total b t + 1 else s.total b t := by
        intro b0 b t
        rw [heq]
        unfold bump2
        by_cases h : b = b0 ∧ t = leakType o l
        · rw [if_pos h, if_pos ⟨rfl, h⟩]
        · rw [if_neg h, if_neg (fun hc => h hc.2)]
      have hsupp : ∀ b, s1.suppLeaks b
          = if ((Y.eff o (leakType o l) l.key).any fun p => p.2 = b) = true then s.suppLeaks b + 1
            else s.suppLeaks b := by
        intro b
        rw [heq, hsl1]; rfl
      rcases hx with ⟨hm, _, hxs, hxp, hxi⟩ | ⟨hm, _, hxs, hxp, hxi⟩
      · -- found by an earlier scan
        have hmF : kind o l ∈ F := by
          rcases hm with h | h
          · exact h
          · exact absurd h hnmem
        have hxp' : x.potential = f := hxp
        have htot2 : s1.total = bump2 s.total f (leakType o l) 1 := by
          rw [htot1, hxs, hxp']; rfl
        cases hh : hidden o (leakType o l) with
        | false =>
          have hid0 : ¬ x.id = 0 := by rw [hxi rfl, hh]; decide
          have hus : true = uniqSet o Y F (kind o l) := by
            unfold uniqSet; rw [if_pos ⟨hmF, hh⟩]
          have hst : (leakShown o s1 x l (leakType o l)).1 = { s1 with
              uniq := bump2 s1.uniq true (leakType o l) 1
              bytes := bump2 s1.bytes f (leakType o l) (BitVec.ofNat 32 (l.size + l.indirect)) } := by
            unfold leakShown
            simp only [if_neg hid0, hxp']
          rw [hst]
          refine hi.snoc x f (by rw [hft]; intro _; rfl) hfind1 hxc (hxs.trans heq.symm)
            (by rw [heq, hft]; exact hxp) (by rw [heq, hh]; intro _; exact ⟨fun h => absurd h hid0, fun h => by cases h⟩)
            ?_ hbytes (huniq true hus) hlk1 hsupp hids1
          intro b t
          rw [← htotal f b t, ← htot2]
        | true =>
          have hid0 : x.id = 0 := by rw [hxi rfl, hh]
          have hf0 : f = false := hgood' hh rfl
          have hus : false = uniqSet o Y F (kind o l) := by
            unfold uniqSet
            rw [if_neg (fun h => by have := h.2; rw [show (kind o l).1 = leakType o l from rfl, hh] at this; cases this)]
            exact hf0.symm.trans hft.symm
          rw [hf0] at hfp hxp'
          have hst : (leakShown o s1 x l (leakType o l)).1 = { s1 with
              uniq := bump2 s1.uniq false (leakType o l) 1
              bytes := bump2 s1.bytes f (leakType o l) (BitVec.ofNat 32 (l.size + l.indirect)) } := by
            unfold leakShown
            simp only [hrep, hh, if_pos hid0, hxp', hfp, hf0, Bool.not_true, Bool.false_eq_true,
              if_false]
          rw [hst]
          refine hi.snoc x f (by rw [hft]; intro _; rfl) hfind1 hxc (hxs.trans heq.symm)
            (by rw [heq, hft]; exact hxp) (by rw [heq, hh]; intro _; simp [hid0])
            ?_ hbytes (huniq false hus) hlk1 hsupp hids1
          intro b t
          rw [← htotal f b t, ← htot2]
      · -- new
        have hus : f = uniqSet o Y F (kind o l) := by
          unfold uniqSet
          rw [if_neg (fun h => hm.1 h.1)]
          exact hft.symm
        have htot2 : s1.total = bump2 s.total false (leakType o l) 1 := by
          rw [htot1, hxs, hxp]; rfl
        have hinc1 := inc_ne hi.ids.1 hn
        have hinc2 := inc_ne hi.ids.2 hn
        cases hh : hidden o (leakType o l) with
        | true =>
          have hf0 : f = false := hgood' hh rfl
          rw [hf0] at hfp
          have hst : (leakShown o s1 x l (leakType o l)).1 = { s1 with
              uniq := bump2 s1.uniq f (leakType o l) 1
              bytes := bump2 s1.bytes f (leakType o l) (BitVec.ofNat 32 (l.size + l.indirect)) } := by
            unfold leakShown
            simp only [hrep, hh, if_pos hxi, hxp, hfp, hf0, Bool.not_true, Bool.false_eq_true,
              if_false]
          rw [hst]
          refine hi.snoc x f (by rw [hft]; intro _; rfl) hfind1 hxc (hxs.trans heq.symm)
            (by rw [heq, hft, hxp, hf0]; rfl) (by rw [heq, hh]; intro _; simp [hxi])
            ?_ hbytes (huniq f hus) hlk1 hsupp hids1
          intro b t
          rw [← htotal f b t, hf0, ← htot2]
        | false =>
          cases f with
          | true =>
            let x1 : Err K := { x with potential := true }
            have hst : (leakShown o s1 x l (leakType o l)).1 =
                { (acquire s1 x1).1 with
                  totalLeaks := bump (bump (acquire s1 x1).1.totalLeaks false (-1)) true 1
                  total := bump2 (bump2 (acquire s1 x1).1.total false (leakType o l) (-1)) true (leakType o l) 1
                  bytes := bump2 (acquire s1 x1).1.bytes true (leakType o l) (BitVec.ofNat 32 (l.size + l.indirect)) } := by
              unfold leakShown
              simp only [hrep, hh, if_pos hxi, hfp, Bool.not_false, if_true, x1]
            rw [hst]
            have hacf := acquire_find s1 x1 (hsome1 x1 hxk.1 hxk.2)
            have hxid : (acquire s1 x1).2.id = s.errorIdPot + 1 := by
              rw [← hid1.2]; rfl
            refine hi.snoc (acquire s1 x1).2 true (by rw [hft]; intro _; rfl) ?_ hxc
              (hxs.trans heq.symm) (by rw [heq, hft]; rfl)
              (by rw [heq, hh, hxid]; intro _; exact ⟨fun h => absurd h hinc2.1, fun h => by cases h⟩)
              ?_ hbytes ?_ ?_ hsupp ?_
            · intro t k
              show (acquire s1 x1).1.find t k = _
              rw [hacf, hfind1]
              show (if t = x.typ ∧ k = x.key then _ else _) = _
              rw [hxk.1, hxk.2]
              split <;> rfl
            · intro b t
              rw [← htotal true b t]
              show bump2 (bump2 s1.total false (leakType o l) (-1)) true (leakType o l) 1 b t = _
              rw [htot2]
              unfold bump2
              by_cases hb : b = true ∧ t = leakType o l
              · rw [if_pos hb, if_pos hb, if_neg (by rw [hb.1]; simp), if_neg (by rw [hb.1]; simp)]
              · rw [if_neg hb, if_neg hb]
                by_cases hb' : b = false ∧ t = leakType o l
                · rw [if_pos hb', if_pos hb', U32.add_neg]
                · rw [if_neg hb', if_neg hb']
            · intro b t
              rw [← huniq true hus b t]
              show bump2 s1.uniq true x.typ 1 b t = _
              rw [hxk.1]
            · show (s1.totalLeaks false + -1) + (s1.totalLeaks true + 1) = _
              rw [← hlk1]
              have h3 : ∀ a b : U32, (a + -1) + (b + 1) = a + b := by
                intro a b
                rw [BitVec.add_comm b, ← BitVec.add_assoc, BitVec.add_assoc a]
                have : (-1 : U32) + 1 = 0 := by decide
                rw [this]
                show (a + 0#32) + b = _
                rw [BitVec.add_zero]
              exact h3 _ _
            · show s1.errorId.toNat ≤ n + 1 ∧ (s1.errorIdPot + 1).toNat ≤ n + 1
              rw [hid1.2]
              exact ⟨hids1.1, hinc2.2⟩
          | false =>
            have hst : (leakShown o s1 x l (leakType o l)).1 =
                { (acquire s1 x).1 with
                  bytes := bump2 (acquire s1 x).1.bytes false (leakType o l) (BitVec.ofNat 32 (l.size + l.indirect)) } := by
              unfold leakShown
              simp only [hrep, hh, if_pos hxi, hfp, hxp, Bool.not_false, if_true, Bool.false_eq_true,
                if_false]
            rw [hst]
            have hac1 : (acquire s1 x).1.uniq = bump2 s1.uniq false x.typ 1 ∧
                (acquire s1 x).1.errorId = s1.errorId + 1 ∧
                (acquire s1 x).1.errorIdPot = s1.errorIdPot ∧
                (acquire s1 x).1.total = s1.total ∧ (acquire s1 x).1.bytes = s1.bytes ∧
                (acquire s1 x).1.totalLeaks = s1.totalLeaks ∧
                (acquire s1 x).1.suppLeaks = s1.suppLeaks ∧
                (acquire s1 x).2 = { x with id := s1.errorId + 1 } := by
              unfold acquire
              rw [hxp]
              exact ⟨rfl, rfl, rfl, rfl, rfl, rfl, rfl, rfl⟩
            obtain ⟨a1, a2, a3, a4, a5, a6, a7, a8⟩ := hac1
            have hacf := acquire_find s1 x (hsome1 x hxk.1 hxk.2)
            refine hi.snoc { x with id := s1.errorId + 1 } false (by rw [hft]; intro _; rfl) ?_ hxc
              (hxs.trans heq.symm) (by rw [heq, hft]; exact hxp)
              (by rw [heq, hh]; intro _; show s1.errorId + 1 = 0 ↔ _; rw [hid1.1]
                  exact ⟨fun h => absurd h hinc1.1, fun h => by cases h⟩)
              ?_ ?_ ?_ ?_ ?_ ?_
            · intro t k
              show (acquire s1 x).1.find t k = _
              rw [hacf, hfind1, a8, hxk.1, hxk.2]
              split <;> rfl
            · intro b t
              show (acquire s1 x).1.total b t = _
              rw [← htotal false b t, a4, htot2]
            · intro b t
              show bump2 (acquire s1 x).1.bytes false (leakType o l) _ b t = _
              rw [a5]; exact hbytes b t
            · intro b t
              show (acquire s1 x).1.uniq b t = _
              rw [← huniq false hus b t, a1, hxk.1]
            · show (acquire s1 x).1.totalLeaks false + (acquire s1 x).1.totalLeaks true = _
              rw [a6]; exact hlk1
            · intro b
              show (acquire s1 x).1.suppLeaks b = _
              rw [a7]; exact hsupp b
            · show (acquire s1 x).1.errorId.toNat ≤ n + 1 ∧ (acquire s1 x).1.errorIdPot.toNat ≤ n + 1
              rw [a2, a3, hid1.1]
              exact ⟨hinc1.2, hids1.2⟩

/-! ## Whole runs -/

theorem acquire_saved (s : St K) (e : Err K) : (acquire s e).1.saved = s.saved := by
  unfold acquire
  cases e.potential <;> rfl

theorem record_saved (s : St K) (t : Nat) (k : K) : (record s t k).1.saved = s.saved := by
  rw [record_rest]

omit [DecidableEq K] in
theorem print_saved (s : St K) (e : Err K) (b : Bool) : (print s e b).saved = s.saved := by
  unfold print; split <;> rfl

theorem leakShown_saved (o : Opts) (s : St K) (e : Err K) (l : Lk K) (t : Nat) :
    (leakShown o s e l t).1.saved = s.saved := by
  unfold leakShown
  simp only []
  generalize (!((l.maybe && !o.possibleLeaks) || (l.reachable && !o.showReachable))) = rep
  by_cases h : e.id = 0
  · simp only [if_pos h]
    cases rep <;> cases l.fp <;>
      (simp only [if_true, if_false, Bool.false_eq_true, acquire_saved]; try rfl)
  · simp only [if_neg h]

theorem leak_saved (o : Opts) (s : St K) (l : Lk K) : (reportLeak o s l).saved = s.saved := by
  unfold reportLeak
  split
  · rfl
  split
  · rfl
  split
  · rfl
  dsimp only
  split
  · rfl
  split
  · unfold leakChecked
    dsimp only
    split
    · split <;> exact record_saved _ _ _
    · split
      · unfold leakSupp
        dsimp only
        split <;> exact record_saved _ _ _
      · rw [print_saved, leakShown_saved, record_saved]
  · rfl

theorem scan_saved (o : Opts) (ls : List (Lk K)) (s : St K) : (scan o s ls).saved = s.saved := by
  unfold scan
  induction ls generalizing s with
  | nil => rfl
  | cons l ls ih => rw [List.foldl_cons, ih, leak_saved]

/-- A whole scan. -/
theorem scan_inv {o : Opts} {Y : Sym K} {F : Finset (Nat × K)} {n : Nat} {s : St K}
    (hi : LInv o Y F [] n s) (ls : List (Lk K)) (hok : ∀ l ∈ ls, LkOk o Y l)
    (hcl : o.checkLeaks = true)
    (hgood : ∀ t k, hidden o t = true → (Y.eff o t k).isNone = true → Y.fp t k = false)
    (hmax : 0 ≤ o.reportLeakMax → ls.length ≤ o.reportLeakMax.toNat)
    (hn : n + ls.length < 2 ^ 32) :
    LInv o Y F ls (n + ls.length) (scan o s ls) := by
  induction ls using List.reverseRecOn with
  | nil => exact hi
  | append_singleton ls l ih =>
    have hl : (ls ++ [l]).length = ls.length + 1 := by simp
    rw [hl] at hmax hn
    have ih' := ih (fun y hy => hok y (List.mem_append_left _ hy)) (fun h => by
      have := hmax h; omega) (by omega)
    have : scan o s (ls ++ [l]) = reportLeak o (scan o s ls) l := by simp [scan]
    rw [this, hl, ← Nat.add_assoc]
    exact leak_step ih' (hok l (by simp)) hcl hgood (fun h => by have := hmax h; omega) (by omega)
      (by omega)

/-- A nudge. -/
theorem nudge_inv {o : Opts} {Y : Sym K} {F : Finset (Nat × K)} {n : Nat} {s : St K}
    (hi : LInv o Y F [] n s) (ls : List (Lk K)) (hok : ∀ l ∈ ls, LkOk o Y l)
    (hcl : o.checkLeaks = true)
    (hgood : ∀ t k, hidden o t = true → (Y.eff o t k).isNone = true → Y.fp t k = false)
    (hmax : 0 ≤ o.reportLeakMax → ls.length ≤ o.reportLeakMax.toNat)
    (hn : n + ls.length < 2 ^ 32) :
    LInv o Y (F ∪ (ls.map (kind o)).toFinset) [] (n + ls.length)
      (revert (scan o (checkpoint s) ls)) := by
  have hck : LInv o Y F [] n (checkpoint s) := { hi with }
  have h := scan_inv hck ls hok hcl hgood hmax hn
  have hsv : (scan o (checkpoint s) ls).saved = (checkpoint s).saved := scan_saved _ _ _
  generalize scan o (checkpoint s) ls = s' at h hsv
  have hmem : ∀ p : Nat × K, p ∈ F ∪ (ls.map (kind o)).toFinset ↔ p ∈ F ∨ p ∈ ls.map (kind o) := by
    intro p; rw [Finset.mem_union, List.mem_toFinset]
  exact {
    absent := by
      intro t k ht h1 _
      rw [hmem, not_or] at h1
      rw [revert_find, h.absent t k ht h1.1 h1.2]; rfl
    ent := by
      intro t k ht h1
      have h1' : (t, k) ∈ F ∨ (t, k) ∈ ls.map (kind o) := by
        rcases h1 with h1 | h1
        · exact (hmem _).1 h1
        · cases h1
      obtain ⟨x, h2, _, h3⟩ := h.ent t k ht h1'
      refine ⟨{ x with count := 0 }, ?_, rfl, h3⟩
      rw [revert_find, h2, Option.map_some, if_pos ht]
    total := by
      intro b t ht
      show (if isLeak t = true then s'.saved.total b t else _) = _
      rw [if_pos ht, hsv]
      show (if isLeak t = true then s.total b t else _) = _
      rw [if_pos ht, hi.total b t ht]
    bytes := by
      intro b t ht
      show (if isLeak t = true then s'.saved.bytes b t else _) = _
      rw [if_pos ht, hsv]
      show (if isLeak t = true then s.bytes b t else _) = _
      rw [if_pos ht, hi.bytes b t ht]
    uniq := by
      intro b t ht
      show (if isLeak t = true then s'.saved.uniq b t else _) = _
      rw [if_pos ht, hsv]
      show (if isLeak t = true then s.uniq b t else _) = _
      rw [if_pos ht, hi.uniq b t ht]
      rfl
    leaks := by
      show s'.saved.totalLeaks false + s'.saved.totalLeaks true = _
      rw [hsv]
      exact hi.leaks
    supp := by
      intro b
      show s'.saved.suppLeaks b = _
      rw [hsv]
      exact hi.supp b
    ids := h.ids }

/-- What `report_error` leaves alone. -/
theorem error_keeps (o : Opts) (s : St K) (e : Ev K) (n : Nat) (hn : n + 1 < 2 ^ 32)
    (hid : s.errorId.toNat ≤ n ∧ s.errorIdPot.toNat ≤ n) :
    (∀ t k, t ≠ e.typ → (reportError o s e).find t k = s.find t k) ∧
    (∀ b t, t ≠ e.typ → (reportError o s e).total b t = s.total b t ∧
      (reportError o s e).uniq b t = s.uniq b t) ∧
    (reportError o s e).bytes = s.bytes ∧ (reportError o s e).totalLeaks = s.totalLeaks ∧
    (reportError o s e).suppLeaks = s.suppLeaks ∧
    (reportError o s e).errorId.toNat ≤ n + 1 ∧ (reportError o s e).errorIdPot.toNat ≤ n + 1 := by
  have hinc1 := (inc_ne hid.1 hn).2
  have hinc2 := (inc_ne hid.2 hn).2
  have hbump : ∀ (f : Bool → Nat → U32) (b0 : Bool) (d : U32) (b : Bool) (t : Nat), t ≠ e.typ →
      bump2 f b0 e.typ d b t = f b t := by
    intro f b0 d b t h
    unfold bump2; rw [if_neg (fun hc => h hc.2)]
  have hprint : ∀ (z : St K) (x : Err K) (b : Bool),
      (print z x b).tbl = z.tbl ∧ (print z x b).total = z.total ∧ (print z x b).uniq = z.uniq ∧
      (print z x b).bytes = z.bytes ∧ (print z x b).totalLeaks = z.totalLeaks ∧
      (print z x b).suppLeaks = z.suppLeaks ∧ (print z x b).errorId = z.errorId ∧
      (print z x b).errorIdPot = z.errorIdPot := by
    intro z x b
    unfold print
    split <;> exact ⟨rfl, rfl, rfl, rfl, rfl, rfl, rfl, rfl⟩
  unfold reportError
  split
  · exact ⟨fun _ _ _ => rfl, fun _ _ _ => ⟨rfl, rfl⟩, rfl, rfl, rfl, by show s.errorId.toNat ≤ _; omega,
      by show s.errorIdPot.toNat ≤ _; omega⟩
  split
  · rw [wild_spec]
    exact ⟨fun _ _ _ => rfl, fun _ _ _ => ⟨rfl, rfl⟩, rfl, rfl, rfl, by show s.errorId.toNat ≤ _; omega,
      by show s.errorIdPot.toNat ≤ _; omega⟩
  dsimp only
  have hrf := record_find s e.typ e.key
  have hrr := record_rest s e.typ e.key
  have hre := record_eq s e.typ e.key
  have hxk := recEntry_key s e.typ e.key
  rw [hre]
  generalize (record s e.typ e.key).1 = s1 at hrf hrr
  generalize recEntry s e.typ e.key = x at hrf hrr hxk
  have f1 : ∀ t k, t ≠ e.typ → s1.find t k = s.find t k := by
    intro t k h; rw [hrf, if_neg (fun hc => h hc.1)]
  have f2 : ∀ b t, t ≠ e.typ → s1.total b t = s.total b t := by
    intro b t h
    rw [hrr]
    show (if x.supp.isNone = true then bump2 s.total x.potential e.typ 1 else s.total) b t = _
    split
    · exact hbump _ _ _ _ _ h
    · rfl
  have f3 : s1.uniq = s.uniq ∧ s1.bytes = s.bytes ∧ s1.totalLeaks = s.totalLeaks ∧
      s1.suppLeaks = s.suppLeaks ∧ s1.errorId = s.errorId ∧ s1.errorIdPot = s.errorIdPot := by
    rw [hrr]; exact ⟨rfl, rfl, rfl, rfl, rfl, rfl⟩
  obtain ⟨g1, g2, g3, g4, g5, g6⟩ := f3
  have base : (∀ t k, t ≠ e.typ → s1.find t k = s.find t k) ∧
      (∀ b t, t ≠ e.typ → s1.total b t = s.total b t ∧ s1.uniq b t = s.uniq b t) ∧
      s1.bytes = s.bytes ∧ s1.totalLeaks = s.totalLeaks ∧ s1.suppLeaks = s.suppLeaks ∧
      s1.errorId.toNat ≤ n + 1 ∧ s1.errorIdPot.toNat ≤ n + 1 :=
    ⟨f1, fun b t h => ⟨f2 b t h, by rw [g1]⟩, g2, g3, g4, by rw [g5]; omega, by rw [g6]; omega⟩
  have put_typ : ∀ (z : St K) (y : Err K) t k, y.typ = e.typ → t ≠ e.typ →
      (z.put y).find t k = z.find t k := by
    intro z y t k hy h
    rw [find_put, if_neg (fun hc => h (hc.1.trans hy))]
  have lift : ∀ (z : St K) (y : Err K) (b : Bool),
      ((∀ t k, t ≠ e.typ → z.find t k = s.find t k) ∧
      (∀ b t, t ≠ e.typ → z.total b t = s.total b t ∧ z.uniq b t = s.uniq b t) ∧
      z.bytes = s.bytes ∧ z.totalLeaks = s.totalLeaks ∧ z.suppLeaks = s.suppLeaks ∧
      z.errorId.toNat ≤ n + 1 ∧ z.errorIdPot.toNat ≤ n + 1) →
      (∀ t k, t ≠ e.typ → (print z y b).find t k = s.find t k) ∧
      (∀ b' t, t ≠ e.typ → (print z y b).total b' t = s.total b' t ∧
        (print z y b).uniq b' t = s.uniq b' t) ∧
      (print z y b).bytes = s.bytes ∧ (print z y b).totalLeaks = s.totalLeaks ∧
      (print z y b).suppLeaks = s.suppLeaks ∧
      (print z y b).errorId.toNat ≤ n + 1 ∧ (print z y b).errorIdPot.toNat ≤ n + 1 := by
    intro z y b h
    obtain ⟨p1, p2, p3, p4, p5, p6, p7, p8⟩ := hprint z y b
    rw [p2, p3, p4, p5, p6, p7, p8]
    refine ⟨?_, h.2⟩
    intro t k ht
    unfold St.find
    rw [p1]
    exact h.1 t k ht
  split
  · cases x.supp with
    | some p =>
      simp only []
      split
      · exact lift _ _ _ base
      · exact base
    | none =>
      simp only []
      split
      · exact lift _ _ _ base
      · exact base
  split
  · apply lift
    unfold firstError
    cases e.supp with
    | some p =>
      simp only []
      refine ⟨?_, ?_, g2, g3, g4, by show s1.errorId.toNat ≤ _; rw [g5]; omega,
        by show s1.errorIdPot.toNat ≤ _; rw [g6]; omega⟩
      · intro t k h
        rw [put_typ _ _ _ _ (by exact hxk.1) h]
        exact f1 t k h
      · intro b t h
        refine ⟨?_, by show s1.uniq b t = _; rw [g1]⟩
        show bump2 s1.total false e.typ (-1) b t = _
        rw [hbump _ _ _ _ _ h, f2 b t h]
    | none =>
      simp only []
      split
      · refine ⟨?_, ?_, g2, g3, g4, by show s1.errorId.toNat ≤ _; rw [g5]; omega,
          by show (s1.errorIdPot + 1).toNat ≤ _; rw [g6]; omega⟩
        · intro t k h
          show (acquire s1 _).1.find t k = _
          rw [acquire_find]
          · rw [if_neg (fun hc => h (hc.1.trans hxk.1))]
            exact f1 t k h
          · rw [show ({ x with potential := true } : Err K).typ = x.typ from rfl,
              show ({ x with potential := true } : Err K).key = x.key from rfl, hxk.1, hxk.2, hrf,
              if_pos ⟨rfl, rfl⟩]
            rfl
        · intro b t h
          constructor
          · show bump2 (bump2 s1.total false e.typ (-1)) true e.typ 1 b t = _
            rw [hbump _ _ _ _ _ h, hbump _ _ _ _ _ h, f2 b t h]
          · show bump2 s1.uniq true x.typ 1 b t = _
            rw [hxk.1, hbump _ _ _ _ _ h, g1]
      · have ha : (acquire s1 x).1.total = s1.total ∧ (acquire s1 x).1.bytes = s1.bytes ∧
            (acquire s1 x).1.totalLeaks = s1.totalLeaks ∧
            (acquire s1 x).1.suppLeaks = s1.suppLeaks ∧
            (acquire s1 x).1.uniq = bump2 s1.uniq x.potential x.typ 1 ∧
            (acquire s1 x).1.errorId.toNat ≤ n + 1 ∧ (acquire s1 x).1.errorIdPot.toNat ≤ n + 1 := by
          unfold acquire
          cases x.potential
          · refine ⟨rfl, rfl, rfl, rfl, rfl, ?_, ?_⟩
            · show (s1.errorId + 1).toNat ≤ _
              rw [g5]; omega
            · show s1.errorIdPot.toNat ≤ _
              rw [g6]; omega
          · refine ⟨rfl, rfl, rfl, rfl, rfl, ?_, ?_⟩
            · show s1.errorId.toNat ≤ _
              rw [g5]; omega
            · show (s1.errorIdPot + 1).toNat ≤ _
              rw [g6]; omega
        obtain ⟨a1, a2, a3, a4, a5, a6, a7⟩ := ha
        refine ⟨?_, ?_, a2.trans g2, a3.trans g3, a4.trans g4, a6, a7⟩
        · intro t k h
          show (acquire s1 x).1.find t k = _
          rw [acquire_find]
          · rw [if_neg (fun hc => h (hc.1.trans hxk.1))]
            exact f1 t k h
          · rw [hxk.1, hxk.2, hrf, if_pos ⟨rfl, rfl⟩]; rfl
        · intro b t h
          constructor
          · show (acquire s1 x).1.total b t = _
            rw [a1, f2 b t h]
          · show (acquire s1 x).1.uniq b t = _
            rw [a5, hxk.1, hbump _ _ _ _ _ h, g1]
  · exact base

theorem error_inv {o : Opts} {Y : Sym K} {F : Finset (Nat × K)} {n : Nat} {s : St K}
    (hi : LInv o Y F [] n s) (e : Ev K) (he : isLeak e.typ = false) (hn : n + 1 < 2 ^ 32) :
    LInv o Y F [] (n + 1) (reportError o s e) := by
  obtain ⟨k1, k2, k3, k4, k5, k6, k7⟩ := error_keeps o s e n hn hi.ids
  have hne : ∀ t, isLeak t = true → t ≠ e.typ := by
    intro t ht hc; rw [hc, he] at ht; cases ht
  exact {
    absent := by
      intro t k ht h1 h2
      rw [k1 t k (hne t ht)]; exact hi.absent t k ht h1 h2
    ent := by
      intro t k ht h1
      rw [k1 t k (hne t ht)]; exact hi.ent t k ht h1
    total := by intro b t ht; rw [(k2 b t (hne t ht)).1]; exact hi.total b t ht
    bytes := by rw [k3]; exact hi.bytes
    uniq := by intro b t ht; rw [(k2 b t (hne t ht)).2]; exact hi.uniq b t ht
    leaks := by rw [k4]; exact hi.leaks
    supp := by rw [k5]; exact hi.supp
    ids := ⟨k6, k7⟩ }

/-- How many errors and leaks an operation hands over. -/
def Op.size : Op K → Nat
  | .err _ => 1
  | .nudge ls => ls.length

/-- The operation hands over errors that are not leaks, or leaks with symbols `Y`, no more than
-report_leak_max. -/
def Op.Ok (o : Opts) (Y : Sym K) : Op K → Prop
  | .err e => isLeak e.typ = false
  | .nudge ls => (∀ l ∈ ls, LkOk o Y l) ∧ (0 ≤ o.reportLeakMax → ls.length ≤ o.reportLeakMax.toNat)

theorem run_inv {o : Opts} {Y : Sym K} (ops : List (Op K)) (hok : ∀ op ∈ ops, op.Ok o Y)
    (hcl : o.checkLeaks = true)
    (hgood : ∀ t k, hidden o t = true → (Y.eff o t k).isNone = true → Y.fp t k = false)
    {F : Finset (Nat × K)} {n : Nat} {s : St K} (hi : LInv o Y F [] n s)
    (hn : n + (ops.map Op.size).sum < 2 ^ 32) :
    LInv o Y (F ∪ found o ops) [] (n + (ops.map Op.size).sum) (ops.foldl (Op.run o) s) := by
  induction ops generalizing F n s with
  | nil => simpa [found] using hi
  | cons op ops ih =>
    rw [List.map_cons, List.sum_cons, ← Nat.add_assoc] at hn ⊢
    rw [List.foldl_cons]
    have ho := hok op (by simp)
    have hr : ∀ op' ∈ ops, op'.Ok o Y := fun op' h => hok op' (List.mem_cons_of_mem _ h)
    cases op with
    | err e => exact ih hr (error_inv hi e ho (by simp only [Op.size] at hn; omega)) hn
    | nudge ls =>
      have := ih hr (nudge_inv hi ls ho.1 hcl hgood ho.2 (by simp only [Op.size] at hn; omega)) hn
      rwa [Finset.union_assoc] at this

theorem linit (o : Opts) (Y : Sym K) : LInv o Y ∅ [] 0 ({} : St K) where
  absent := fun _ _ _ _ _ => rfl
  ent := by
    intro t k _ h
    rcases h with h | h
    · exact absurd h (Finset.notMem_empty _)
    · cases h
  total := fun _ _ _ => rfl
  bytes := fun _ _ _ => rfl
  uniq := fun _ _ _ => rfl
  leaks := rfl
  supp := fun _ => rfl
  ids := ⟨Nat.le_refl 0, Nat.le_refl 0⟩

/-! ## Theorems -/

/-- The state after everything in `ops` and a last scan that finds `ls`. -/
def atExit (o : Opts) (ops : List (Op K)) (ls : List (Lk K)) : St K :=
  scan o (ops.foldl (Op.run o) {}) ls

/-- The conditions under which the leak statistics are right: leak checking is on, all leak types
that are likely false positives are printed, -report_leak_max is not reached and there are fewer
than 2^32 errors and leaks. -/
structure RunOk (o : Opts) (Y : Sym K) (ops : List (Op K)) (ls : List (Lk K)) : Prop where
  check : o.checkLeaks = true
  good : ∀ t k, hidden o t = true → (Y.eff o t k).isNone = true → Y.fp t k = false
  before : ∀ op ∈ ops, op.Ok o Y
  last : (Op.nudge ls).Ok o Y
  few : (ops.map Op.size).sum + ls.length < 2 ^ 32

theorem exit_inv {o : Opts} {Y : Sym K} {ops : List (Op K)} {ls : List (Lk K)}
    (h : RunOk o Y ops ls) :
    LInv o Y (found o ops) ls ((ops.map Op.size).sum + ls.length) (atExit o ops ls) := by
  have hf := h.few
  have := run_inv ops h.before h.check h.good (linit o Y) (by omega)
  rw [Finset.empty_union, Nat.zero_add] at this
  exact scan_inv this ls h.last.1 h.check h.good h.last.2 hf

/-- The counts, the bytes and the number of suppressed leaks that the summary shows are those of
the last scan, whatever errors, nudges and fuzzing iterations came before.  Partial: for a hidden
leak that is a likely false positive they are not, see `C43_total_underflow`. -/
theorem C43_counts_partial {o : Opts} {Y : Sym K} {ops : List (Op K)} {ls : List (Lk K)}
    (h : RunOk o Y ops ls) (b : Bool) (t : Nat) (ht : isLeak t = true) :
    (atExit o ops ls).total b t
      = BitVec.ofNat 32 (ls.countP fun l => leakType o l = t && Y.inSet o b (kind o l)) ∧
    (atExit o ops ls).bytes b t
      = BitVec.ofNat 32 (((ls.filter fun l => leakType o l = t && Y.inSet o b (kind o l)).map
          fun l => l.size + l.indirect).sum) ∧
    (atExit o ops ls).totalLeaks false + (atExit o ops ls).totalLeaks true
      = BitVec.ofNat 32 ls.length ∧
    (atExit o ops ls).suppLeaks b
      = BitVec.ofNat 32 (ls.countP fun l => (Y.eff o (leakType o l) l.key).any fun p => p.2 = b) :=
  ⟨(exit_inv h).total b t ht, (exit_inv h).bytes b t ht, (exit_inv h).leaks, (exit_inv h).supp b⟩

/-- So an earlier scan has no influence on them. -/
theorem C43_nudge_partial {o : Opts} {Y : Sym K} {ops : List (Op K)} {ls : List (Lk K)}
    (h : RunOk o Y ops ls) (b : Bool) (t : Nat) (ht : isLeak t = true) :
    (atExit o ops ls).total b t = (atExit o [] ls).total b t ∧
    (atExit o ops ls).bytes b t = (atExit o [] ls).bytes b t ∧
    (atExit o ops ls).suppLeaks b = (atExit o [] ls).suppLeaks b := by
  have h0 : RunOk o Y [] ls := { h with
    before := fun _ hc => by cases hc
    few := by have := h.few; simp; omega }
  have h1 := C43_counts_partial h b t ht
  have h2 := C43_counts_partial h0 b t ht
  exact ⟨h1.1.trans h2.1.symm, h1.2.1.trans h2.2.1.symm, h1.2.2.2.trans h2.2.2.2.symm⟩

/-- The number of occurrences kept for a leak is that of the last scan. -/
theorem C43_occurrences_partial {o : Opts} {Y : Sym K} {ops : List (Op K)} {ls : List (Lk K)}
    (h : RunOk o Y ops ls) {l : Lk K} (hl : l ∈ ls) :
    ∃ x, (atExit o ops ls).find (leakType o l) l.key = some x ∧
      x.count.toNat = ls.countP (fun l' => kind o l' = kind o l) := by
  obtain ⟨x, h1, h2, _⟩ := (exit_inv h).ent (leakType o l) l.key
    (leakType_isLeak (h.last.1 l hl)).1 (Or.inr (List.mem_map.2 ⟨l, hl, rfl⟩))
  refine ⟨x, h1, ?_⟩
  rw [h2, BitVec.toNat_ofNat, Nat.mod_eq_of_lt]
  · rfl
  · have := List.countP_le_length (p := fun l' : Lk K => decide (kind o l' = (leakType o l, l.key)))
      (l := ls)
    have := h.few
    omega

/-- The unique leaks of a type, summed over the two sets, are the different unsuppressed kinds of
the last scan. -/
theorem C43_unique_partial {o : Opts} {Y : Sym K} {ops : List (Op K)} {ls : List (Lk K)}
    (h : RunOk o Y ops ls) (t : Nat) (ht : isLeak t = true) :
    (atExit o ops ls).uniq false t + (atExit o ops ls).uniq true t
      = BitVec.ofNat 32 ((ls.map (kind o)).toFinset.filter fun p =>
          p.1 = t ∧ (Y.eff o p.1 p.2).isNone = true).card := by
  rw [(exit_inv h).uniq false t ht, (exit_inv h).uniq true t ht, ← BitVec.ofNat_add]
  congr 1
  rw [← Finset.card_union_of_disjoint]
  · congr 1
    ext p
    unfold uniqKinds
    simp only [Finset.mem_union, Finset.mem_filter]
    constructor
    · rintro (h1 | h1)
      · exact ⟨h1.1, h1.2.1, h1.2.2.1⟩
      · exact ⟨h1.1, h1.2.1, h1.2.2.1⟩
    · intro h1
      cases hu : uniqSet o Y (found o ops) p
      · exact Or.inl ⟨h1.1, h1.2.1, h1.2.2, rfl⟩
      · exact Or.inr ⟨h1.1, h1.2.1, h1.2.2, rfl⟩
  · rw [Finset.disjoint_left]
    intro p h1 h2
    unfold uniqKinds at h1 h2
    have h1 := (Finset.mem_filter.1 h1).2.2.2
    have h2 := (Finset.mem_filter.1 h2).2.2.2
    rw [h1] at h2
    cases h2

/-- In which set each kind is counted: a printed kind that an earlier scan found is counted as
potential, the others are counted in their own set. -/
theorem C43_unique_set {o : Opts} {Y : Sym K} {ops : List (Op K)} {ls : List (Lk K)}
    (h : RunOk o Y ops ls) (b : Bool) (t : Nat) (ht : isLeak t = true) :
    (atExit o ops ls).uniq b t
      = BitVec.ofNat 32 ((ls.map (kind o)).toFinset.filter fun p =>
          p.1 = t ∧ (Y.eff o p.1 p.2).isNone = true ∧
          (if p ∈ found o ops ∧ hidden o p.1 = false then true else Y.fp p.1 p.2) = b).card :=
  (exit_inv h).uniq b t ht

/-- So without earlier scans each kind is counted in its own set. -/
theorem C43_unique_first {o : Opts} {Y : Sym K} {ops : List (Op K)} {ls : List (Lk K)}
    (h : RunOk o Y ops ls) (hno : ∀ l ∈ ls, kind o l ∉ found o ops) (b : Bool) (t : Nat)
    (ht : isLeak t = true) :
    (atExit o ops ls).uniq b t
      = BitVec.ofNat 32 ((ls.map (kind o)).toFinset.filter fun p =>
          p.1 = t ∧ Y.inSet o b p = true).card := by
  rw [C43_unique_set h b t ht]
  congr 2
  apply Finset.filter_congr
  intro p hp
  obtain ⟨l, h1, h2⟩ := List.mem_map.1 (List.mem_toFinset.1 hp)
  rw [if_neg (fun hc => hno l h1 (by rw [h2]; exact hc.1))]
  unfold Sym.inSet
  simp

/-! ## Where the code differs -/

/-- Defaults with leak checking. -/
def wOpts : Opts := { checkLeaks := true, possibleLeaks := true }

/-- A leak of ten bytes. -/
def wLk : Lk Nat := { key := 5, size := 10, countReachable := true, showReachable := false }

/-- No suppressions, no likely false positives. -/
def wSym : Sym Nat := { supp := fun _ _ => none, fp := fun _ _ => false }

example : RunOk wOpts wSym [.nudge [wLk], .err { typ := 1, key := 7 }, .nudge [wLk, wLk]] [wLk, wLk] where
  check := rfl
  good := fun _ _ _ _ => rfl
  before := by
    have h : LkOk wOpts wSym wLk := ⟨rfl, rfl, rfl, rfl, by decide, rfl, rfl⟩
    intro op hop
    simp only [List.mem_cons, List.not_mem_nil, or_false] at hop
    rcases hop with rfl | rfl | rfl
    · exact ⟨fun l hl => by simp at hl; exact hl ▸ h, by decide⟩
    · rfl
    · exact ⟨fun l hl => by simp at hl; exact hl ▸ h, by decide⟩
  last := by
    have h : LkOk wOpts wSym wLk := ⟨rfl, rfl, rfl, rfl, by decide, rfl, rfl⟩
    exact ⟨fun l hl => by simp at hl; exact hl ▸ h, by decide⟩
  few := by decide

example : (atExit wOpts [.nudge [wLk], .err { typ := 1, key := 7 }, .nudge [wLk, wLk]]
    [wLk, wLk]).total false LEAK = 2 := by decide +kernel

example : (atExit wOpts [.nudge [wLk], .err { typ := 1, key := 7 }, .nudge [wLk, wLk]]
    [wLk, wLk]).bytes false LEAK = 20 := by decide +kernel

/-- A leak that is no likely false positive and is found again after a nudge is counted as a unique
potential leak and not as a unique leak: the summary shows 0 unique, 1 total leak. -/
theorem C43_unique_wrong :
    (atExit wOpts [.nudge [wLk]] [wLk]).uniq false LEAK = 0 ∧
    (atExit wOpts [.nudge [wLk]] [wLk]).uniq true LEAK = 1 ∧
    (atExit wOpts [.nudge [wLk]] [wLk]).total false LEAK = 1 ∧
    (atExit wOpts [] [wLk]).uniq false LEAK = 1 := by decide +kernel

/-- With -no_possible_leaks, a possible leak that is a likely false positive and is found again
after a nudge makes the number of possible leaks wrap below zero. -/
theorem C43_total_underflow :
    let o : Opts := { checkLeaks := true, possibleLeaks := false }
    let l : Lk Nat := { key := 5, size := 10, countReachable := true, maybe := true, fp := true }
    (atExit o [.nudge [l]] [l]).total false POSSIBLE = 0xffffffff ∧
    (atExit o [.nudge [l]] [l]).total true POSSIBLE = 2 ∧
    (atExit o [] [l]).total false POSSIBLE = 0 ∧
    (atExit o [] [l]).total true POSSIBLE = 1 := by decide +kernel

omit [DecidableEq K] in
/-- In a forked child all counts and bytes that the summary shows start at zero, except the bytes
of reachable leaks. -/
theorem C43_fork_partial (s : St K) (b : Bool) (t : Nat) (ht : t < MAXVAL) :
    (forkInit s).uniq b t = 0 ∧ (forkInit s).total b t = 0 ∧
    (isLeak t = true → t ≠ REACHABLE → (forkInit s).bytes b t = 0) ∧
    (forkInit s).suppLeaks b = 0 ∧ (forkInit s).totalLeaks b = 0 ∧ (forkInit s).tbl = [] := by
  refine ⟨if_pos ht, if_pos ht, ?_, rfl, rfl, rfl⟩
  intro h1 h2
  have : LEAK ≤ t ∧ t < REACHABLE := by
    unfold isLeak at h1
    unfold LEAK REACHABLE at *
    simp at h1
    omega
  exact if_pos this

/-- The bytes of reachable leaks found by a nudge in progress are inherited. -/
theorem C43_fork_reachable :
    let l : Lk Nat := { key := 5, size := 10, countReachable := true, reachable := true }
    (forkInit (scan wOpts {} [l])).bytes false REACHABLE = 10 := by decide +kernel

end Verif.Er
