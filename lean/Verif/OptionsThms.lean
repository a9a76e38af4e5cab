import Verif.OptionsProps

/-!
# Options: theorems
-/

namespace Verif.Options

/-! ## From the command line to the assignments -/

theorem length_ops : ∀ as : List Str, as.length ≤ (clientOps as).length ∧
    ∀ a ∈ as, a.length + 3 ≤ (clientOps as).length := by
  intro as
  induction as with
  | nil => simp [clientOps]
  | cons a as ih =>
    rw [flatten_cons']
    simp only [quoteArg, List.length_append, List.length_cons, List.length_nil]
    refine ⟨by omega, fun b hb => ?_⟩
    rcases List.mem_cons.1 hb with rfl | hb
    · omega
    · have := ih.2 b hb; omega

/-- C53: the arguments that the frontend passes on, none of which has a back quote, reach the
tool as they were given: the result is that of the assignments the arguments stand
for. -/
theorem C53_roundtrip_partial {max : Nat} {as : List Str} (hq : ∀ a ∈ as, '`' ∉ a)
    (hl : (clientOps as).length ≤ max) (tbl : List Entry) (t : St) :
    optionsInit max tbl (clientOps as) t =
      match asgs tbl as with
      | .error e => .error e
      | .ok l => .ok (l.foldl apply t) := by
  have h := length_ops as
  have := parse_clientOps (max := max) (tbl := tbl) as.length as ((clientOps as).length + 1) [] t (Nat.le_refl _)
    (by omega) (by simp) fun a ha => ⟨hq a ha, by have := h.2 a ha; omega⟩
  rw [List.nil_append] at this
  exact this.trans (by cases asgs tbl as <;> rfl)

/-! ## Single values: the last assignment counts -/

theorem apply_val (t : St) (x : String × Asg) (n : String) (hx : x.1 = n → ∀ s, x.2 ≠ .add s) :
    (apply t x).val n = (lastVal n [x]).getD (t.val n) := by
  obtain ⟨m, a⟩ := x
  unfold apply lastVal
  cases a with
  | add s =>
    have hne : m ≠ n := fun h => hx h s rfl
    have hne' : ¬ n = m := fun h => hne h.symm
    dsimp only
    cases ht : t.val m <;> simp [St.set, hne, hne']
  | bool b => by_cases h : m = n <;> simp [St.set, h, eq_comm (a := n)]
  | num b => by_cases h : m = n <;> simp [St.set, h, eq_comm (a := n)]
  | str b => by_cases h : m = n <;> simp [St.set, h, eq_comm (a := n)]

theorem lastVal_cons (n : String) (x : String × Asg) (l : List (String × Asg)) :
    lastVal n (x :: l) = (lastVal n l).or (lastVal n [x]) := by
  simp [lastVal, List.findSome?_append]

theorem fold_val (n : String) : ∀ (l : List (String × Asg)) (t : St),
    (∀ x ∈ l, x.1 = n → ∀ s, x.2 ≠ .add s) →
    (l.foldl apply t).val n = (lastVal n l).getD (t.val n) := by
  intro l
  induction l with
  | nil => intro t _; rfl
  | cons x l ih =>
    intro t h
    rw [List.foldl_cons, ih _ fun y hy => h y (by simp [hy]), apply_val t x n (h x (by simp)), lastVal_cons n x l]
    cases lastVal n l <;> simp

theorem fold_spec (n : String) : ∀ (l : List (String × Asg)) (t : St),
    (l.foldl apply t).spec n = (t.spec n || l.any fun x => x.1 = n) := by
  intro l
  induction l with
  | nil => intro t; simp
  | cons x l ih =>
    intro t
    rw [List.foldl_cons, ih]
    have : (apply t x).spec n = (decide (n = x.1) || t.spec n) := by
      unfold apply
      split
      · rfl
      · rfl
      · rfl
      · split <;> rfl
    rw [this, List.any_cons]
    have : decide (x.1 = n) = decide (n = x.1) := by simp [eq_comm]
    rw [this]
    cases decide (n = x.1) <;> cases t.spec n <;> simp

/-- The assignments come from entries of the table. -/
theorem asgs_ty {tbl : List Entry} : ∀ (k : Nat) (as : List Str) {l : List (String × Asg)}, as.length ≤ k →
    asgs tbl as = .ok l → ∀ x ∈ l, ∃ e ∈ tbl, e.name = x.1 ∧ ((∃ s, x.2 = .add s) ↔ e.ty = .multi) := by
  intro k
  induction k with
  | zero =>
    intro as l hk h
    have : as = [] := List.length_eq_zero_iff.1 (by omega)
    subst this
    rw [asgs] at h
    cases h
    simp
  | succ k ih =>
    intro as l hk h
    cases as with
    | nil => rw [asgs] at h; cases h; simp
    | cons w ws =>
      simp only [List.length_cons] at hk
      rw [asgs] at h
      cases hl : lookup tbl w with
      | none => rw [hl] at h; cases h
      | some p =>
        obtain ⟨e, a⟩ := p
        have hm := lookup_some hl
        rw [hl] at h
        have key : ∀ {y : String × Asg} {ws' : List Str}, ws'.length ≤ k → (asgs tbl ws').map (y :: ·) = .ok l →
            (∃ e ∈ tbl, e.name = y.1 ∧ ((∃ s, y.2 = .add s) ↔ e.ty = .multi)) →
            ∀ x ∈ l, ∃ e ∈ tbl, e.name = x.1 ∧ ((∃ s, x.2 = .add s) ↔ e.ty = .multi) := by
          intro y ws' hk' hy he x hx
          cases hw : asgs tbl ws' with
          | error z => rw [hw] at hy; cases hy
          | ok l' =>
            rw [hw] at hy
            cases hy
            rcases List.mem_cons.1 hx with rfl | hx
            · exact he
            · exact ih ws' hk' hw x hx
        cases a with
        | set b =>
          refine key (by omega) h ⟨e, hm.1, rfl, ?_⟩
          have : e.ty = .bool := by
            by_cases hb : e.ty = .bool
            · exact hb
            · have := hm.2
              unfold Entry.matchWord at this
              rw [if_neg hb] at this
              split at this <;> cases this
          simp [this]
        | value =>
          cases ws with
          | nil => cases h
          | cons v vs =>
            simp only [List.length_cons] at hk
            have hty := value_ty hm.2
            dsimp only at h
            cases hT : e.ty with
            | bool => exact absurd hT hty
            | str =>
              rw [hT] at h
              dsimp only at h
              split at h
              · exact key (by simp only [List.length_cons]; omega) h ⟨e, hm.1, rfl, by simp [hT]⟩
              · exact key (by omega) h ⟨e, hm.1, rfl, by simp [hT]⟩
            | multi =>
              rw [hT] at h
              exact key (by omega) h ⟨e, hm.1, rfl, by simp [hT]⟩
            | uint lo hi =>
              rw [hT] at h
              dsimp only at h
              split at h
              · cases h
              · exact key (by omega) h ⟨e, hm.1, rfl, by simp [hT]⟩
            | uint64 lo hi =>
              rw [hT] at h
              dsimp only at h
              split at h
              · cases h
              · exact key (by omega) h ⟨e, hm.1, rfl, by simp [hT]⟩
            | int lo hi =>
              rw [hT] at h
              dsimp only at h
              split at h
              · cases h
              · exact key (by omega) h ⟨e, hm.1, rfl, by simp [hT]⟩

/-! ## The table -/

/-- How an option may be written. -/
inductive Spells (e : Entry) : Str → Say → Prop where
  | on (h : e.ty = .bool) (n : String) (hn : n = e.name ∨ e.alt = some n) : Spells e ('-' :: n.toList) (.set true)
  | off (h : e.ty = .bool) (n : String) (hn : n = e.name ∨ e.alt = some n) :
      Spells e ("-no_".toList ++ n.toList) (.set false)
  | val (h : e.ty ≠ .bool) (n : String) (hn : n = e.name ∨ e.alt = some n) : Spells e ('-' :: n.toList) .value

/-- The spellings as a list. -/
def spells (e : Entry) : List (Str × Say) :=
  (e.name :: e.alt.toList).flatMap fun n =>
    if e.ty = .bool then [('-' :: n.toList, .set true), ("-no_".toList ++ n.toList, .set false)]
    else [('-' :: n.toList, .value)]

theorem spells_iff {e : Entry} {w : Str} {a : Say} : (w, a) ∈ spells e ↔ Spells e w a := by
  unfold spells
  simp only [List.mem_flatMap, List.mem_cons, Option.mem_toList]
  constructor
  · rintro ⟨n, hn, h⟩
    split at h
    · rename_i hb
      simp only [List.mem_cons, Prod.mk.injEq, List.not_mem_nil, or_false] at h
      rcases h with ⟨rfl, rfl⟩ | ⟨rfl, rfl⟩
      · exact .on hb n hn
      · exact .off hb n hn
    · rename_i hb
      simp only [List.mem_cons, Prod.mk.injEq, List.not_mem_nil, or_false] at h
      obtain ⟨rfl, rfl⟩ := h
      exact .val hb n hn
  · rintro (⟨h, n, hn⟩ | ⟨h, n, hn⟩ | ⟨h, n, hn⟩)
    · exact ⟨n, hn, by simp [h]⟩
    · exact ⟨n, hn, by simp [h]⟩
    · exact ⟨n, hn, by simp [h]⟩

/-- A number for a string. -/
def key (s : Str) : Nat := s.foldl (fun a c => a * 256 + c.toNat) 1

/-- The numbers, reduced modulo `p`, are different from each other and from the bits of `acc`. -/
def fresh (p : Nat) : List Nat → Nat → Bool
  | [], _ => true
  | x :: xs, acc => ! acc.testBit (x % p) && fresh p xs (acc ||| 1 <<< (x % p))

theorem fresh_spec (p : Nat) : ∀ (xs : List Nat) (acc : Nat), fresh p xs acc = true →
    xs.Nodup ∧ ∀ x ∈ xs, acc.testBit (x % p) = false := by
  intro xs
  induction xs with
  | nil => intro acc _; simp
  | cons x xs ih =>
    intro acc h
    simp only [fresh, Bool.and_eq_true, Bool.not_eq_eq_eq_not, Bool.not_true] at h
    obtain ⟨h1, h2⟩ := ih _ h.2
    have h3 : ∀ y ∈ xs, acc.testBit (y % p) = false ∧ x % p ≠ y % p := by
      intro y hy
      have := h2 y hy
      rw [Nat.testBit_or, Bool.or_eq_false_iff, Nat.shiftLeft_eq, Nat.one_mul, Nat.testBit_two_pow] at this
      exact ⟨this.1, by simpa using this.2⟩
    refine ⟨List.nodup_cons.2 ⟨fun hx => (h3 x hx).2 rfl, h1⟩, ?_⟩
    intro y hy
    rcases List.mem_cons.1 hy with rfl | hy
    · exact h.1
    · exact (h3 y hy).1

set_option maxRecDepth 100000 in
theorem all_fresh : fresh 9931
    (("-\"\"".toList :: "-no_\"\"".toList :: ((table true).flatMap spells).map Prod.fst).map key) 0 = true := by
  decide +kernel

theorem nodup_of_map {α β : Type} (f : α → β) : ∀ {l : List α}, (l.map f).Nodup → l.Nodup := by
  intro l
  induction l with
  | nil => simp
  | cons a l ih =>
    intro h
    simp only [List.map_cons, List.nodup_cons, List.mem_map, not_exists, not_and] at h
    exact List.nodup_cons.2 ⟨fun ha => h.1 a ha rfl, ih h.2⟩

theorem sublist_spells : ∀ (l : List Entry) (p : Entry → Bool),
    List.Sublist (((l.filter p).flatMap spells).map Prod.fst) ((l.flatMap spells).map Prod.fst) := by
  intro l p
  induction l with
  | nil => simp
  | cons e l ih =>
    rw [List.filter_cons]
    simp only [List.flatMap_cons, List.map_append]
    split
    · simp only [List.flatMap_cons, List.map_append]
      exact (List.Sublist.refl _).append ih
    · exact ih.trans (List.sublist_append_right _ _)

theorem table_sub (win : Bool) : List.Sublist (((table win).flatMap spells).map Prod.fst)
    (((table true).flatMap spells).map Prod.fst) := by
  cases win with
  | true => exact List.Sublist.refl _
  | false =>
    have h : table true = allOptions := by
      unfold table
      simp
    rw [h]
    exact sublist_spells _ _

/-- All spellings of all options are different, and none is a dash with two quotes. -/
theorem table_spells (win : Bool) : (((table win).flatMap spells).map Prod.fst).Nodup ∧
    "-\"\"".toList ∉ ((table win).flatMap spells).map Prod.fst ∧
    "-no_\"\"".toList ∉ ((table win).flatMap spells).map Prod.fst := by
  have h := nodup_of_map key (fresh_spec _ _ _ all_fresh).1
  rw [List.nodup_cons, List.nodup_cons] at h
  refine ⟨h.2.2.sublist (table_sub win), fun hm => h.1 ?_, fun hm => h.2.1 ?_⟩
  · exact List.mem_cons_of_mem _ ((table_sub win).subset hm)
  · exact (table_sub win).subset hm

/-- A match is a spelling, or a dash with two quotes. -/
theorem match_spells {e : Entry} {w : Str} {a : Say} (h : e.matchWord w = some a) :
    Spells e w a ∨ w = "-\"\"".toList ∨ w = "-no_\"\"".toList := by
  have halt : ∀ pre : Str, w = pre ++ altName e → pre = ['-'] ∨ pre = "-no_".toList →
      (∃ n, e.alt = some n ∧ w = pre ++ n.toList) ∨ w = "-\"\"".toList ∨ w = "-no_\"\"".toList := by
    intro pre hw hp
    unfold altName at hw
    cases ha : e.alt with
    | some n => rw [ha] at hw; exact .inl ⟨n, rfl, hw⟩
    | none =>
      rw [ha] at hw
      rcases hp with rfl | rfl
      · exact .inr (.inl hw)
      · exact .inr (.inr hw)
  unfold Entry.matchWord at h
  by_cases hb : e.ty = .bool
  · rw [if_pos hb] at h
    split at h
    · rename_i hw
      cases h
      rcases hw with hw | hw
      · exact .inl (hw ▸ .on hb e.name (.inl rfl))
      · rcases halt ['-'] hw (.inl rfl) with ⟨n, hn, hw⟩ | h
        · exact .inl (hw ▸ .on hb n (.inr hn))
        · exact .inr h
    · split at h
      · rename_i hw
        cases h
        rcases hw with hw | hw
        · exact .inl (hw ▸ .off hb e.name (.inl rfl))
        · rcases halt "-no_".toList hw (.inr rfl) with ⟨n, hn, hw⟩ | h
          · exact .inl (hw ▸ .off hb n (.inr hn))
          · exact .inr h
      · cases h
  · rw [if_neg hb] at h
    split at h
    · rename_i hw
      cases h
      rcases hw with hw | hw
      · exact .inl (hw ▸ .val hb e.name (.inl rfl))
      · rcases halt ['-'] hw (.inl rfl) with ⟨n, hn, hw⟩ | h
        · exact .inl (hw ▸ .val hb n (.inr hn))
        · exact .inr h
    · cases h

/-- Conversely, a spelling matches. -/
theorem spells_match {e : Entry} {w : Str} {a : Say} (h : Spells e w a) : ∃ b, e.matchWord w = some b := by
  have alt : ∀ n, n = e.name ∨ e.alt = some n → ∀ pre : Str,
      pre ++ n.toList = pre ++ e.name.toList ∨ pre ++ n.toList = pre ++ altName e := by
    rintro n (rfl | hn) pre
    · exact .inl rfl
    · right; unfold altName; rw [hn]
  unfold Entry.matchWord
  cases h with
  | on h n hn =>
    rw [if_pos h, if_pos (show '-' :: n.toList = '-' :: e.name.toList ∨ '-' :: n.toList = '-' :: altName e from
      alt n hn ['-'])]
    exact ⟨_, rfl⟩
  | off h n hn =>
    rw [if_pos h]
    split
    · exact ⟨_, rfl⟩
    · rw [if_pos (alt n hn "-no_".toList)]; exact ⟨_, rfl⟩
  | val h n hn =>
    rw [if_neg h, if_pos (show '-' :: n.toList = '-' :: e.name.toList ∨ '-' :: n.toList = '-' :: altName e from
      alt n hn ['-'])]
    exact ⟨_, rfl⟩

theorem nodup_fst {l : List (Str × Say)} (h : (l.map Prod.fst).Nodup) {w : Str} {a b : Say} (ha : (w, a) ∈ l)
    (hb : (w, b) ∈ l) : a = b := by
  induction l with
  | nil => cases ha
  | cons x l ih =>
    simp only [List.map_cons, List.nodup_cons, List.mem_map, not_exists, not_and] at h
    rcases List.mem_cons.1 ha with ha | ha
    · rcases List.mem_cons.1 hb with hb | hb
      · exact (Prod.mk.inj (ha.trans hb.symm)).2
      · exact absurd (congrArg Prod.fst ha) (h.1 (w, b) hb)
    · rcases List.mem_cons.1 hb with hb | hb
      · exact absurd (congrArg Prod.fst hb) (h.1 (w, a) ha)
      · exact ih h.2 ha hb

theorem lookup_spells : ∀ {tbl : List Entry} (_ : ((tbl.flatMap spells).map Prod.fst).Nodup)
    {e : Entry} (_ : e ∈ tbl) {w : Str} {a : Say} (_ : (w, a) ∈ spells e) (_ : w ≠ "-\"\"".toList)
    (_ : w ≠ "-no_\"\"".toList), lookup tbl w = some (e, a) := by
  intro tbl
  induction tbl with
  | nil => intro _ e he; cases he
  | cons x tbl ih =>
    intro hn e he w a hw q1 q2
    simp only [List.flatMap_cons, List.map_append] at hn
    obtain ⟨n1, n2, n3⟩ := List.nodup_append.1 hn
    simp only [lookup]
    rcases List.mem_cons.1 he with rfl | he
    · obtain ⟨b, hb⟩ := spells_match (spells_iff.1 hw)
      rcases match_spells hb with h | h | h
      · rw [hb, nodup_fst n1 hw (spells_iff.2 h)]
      · exact absurd h q1
      · exact absurd h q2
    · cases hb : x.matchWord w with
      | none => exact ih n2 he hw q1 q2
      | some b =>
        exfalso
        rcases match_spells hb with h | h | h
        · exact n3 w (List.mem_map.2 ⟨_, spells_iff.2 h, rfl⟩) w
            (List.mem_map.2 ⟨_, List.mem_flatMap.2 ⟨e, he, hw⟩, rfl⟩) rfl
        · exact absurd h q1
        · exact absurd h q2

/-- C53: no two options share a spelling: each spelling of an option means that option. -/
theorem C53_names (win : Bool) {e : Entry} (he : e ∈ table win) {w : Str} {a : Say} (h : Spells e w a) :
    lookup (table win) w = some (e, a) := by
  obtain ⟨h1, h2, h3⟩ := table_spells win
  have hm : w ∈ ((table win).flatMap spells).map Prod.fst :=
    List.mem_map.2 ⟨_, List.mem_flatMap.2 ⟨e, he, spells_iff.2 h⟩, rfl⟩
  exact lookup_spells h1 he (spells_iff.2 h) (fun e => h2 (e ▸ hm)) fun e => h3 (e ▸ hm)

/-- C53: a word that is no spelling of an option, other than a dash with two quotes, is rejected,
in every table. -/
theorem C53_unknown_partial {tbl : List Entry} {w : Str} (h : ∀ e ∈ tbl, ∀ a, ¬ Spells e w a)
    (h1 : w ≠ "-\"\"".toList) (h2 : w ≠ "-no_\"\"".toList) (ws : List Str) :
    asgs tbl (w :: ws) = .error .unknown := by
  have : lookup tbl w = none := by
    cases hl : lookup tbl w with
    | none => rfl
    | some p =>
      exfalso
      obtain ⟨e, a⟩ := p
      obtain ⟨he, hm⟩ := lookup_some hl
      rcases match_spells hm with hs | hs | hs
      · exact h e he a hs
      · exact h1 hs
      · exact h2 hs
  rw [asgs, this]

/-- C53, negative: a dash with two quotes is taken for the first option of the table, `-light`: the
test for a second name looks at the stringised empty string, which has quotes. -/
theorem C53_quotes : (lookup (table false) "-\"\"".toList).map (fun x => (x.1.name, x.2)) =
    some ("light", .set true) := by decide +kernel

theorem table_name (win : Bool) {e f : Entry} (he : e ∈ table win) (hf : f ∈ table win) (hn : e.name = f.name) :
    e = f := by
  have key : ∀ {g : Entry}, g ∈ table win → ∃ a, lookup (table win) ('-' :: g.name.toList) = some (g, a) := by
    intro g hg
    by_cases hb : g.ty = .bool
    · exact ⟨_, C53_names win hg (.on hb g.name (.inl rfl))⟩
    · exact ⟨_, C53_names win hg (.val hb g.name (.inl rfl))⟩
  obtain ⟨a, ha⟩ := key he
  obtain ⟨b, hb⟩ := key hf
  rw [← hn, ha] at hb
  exact (Prod.mk.inj (Option.some.inj hb)).1

/-- C53: an option that is not repeatable has the value given last, or its initial value if it
was not given; it counts as specified exactly if it was given. -/
theorem C53_last (win : Bool) {as : List Str} {l : List (String × Asg)} (ha : asgs (table win) as = .ok l)
    {e : Entry} (he : e ∈ table win) (hm : e.ty ≠ .multi) (t : St) :
    (l.foldl apply t).val e.name = (lastVal e.name l).getD (t.val e.name) ∧
    (l.foldl apply t).spec e.name = (t.spec e.name || l.any fun x => x.1 = e.name) := by
  refine ⟨fold_val _ _ _ fun x hx hn s hs => ?_, fold_spec _ _ _⟩
  obtain ⟨f, hf, hfn, hfm⟩ := asgs_ty as.length as (Nat.le_refl _) ha x hx
  have : e = f := table_name win he hf (hfn.trans hn).symm
  exact hm (this ▸ hfm.1 ⟨s, hs⟩)

end Verif.Options
