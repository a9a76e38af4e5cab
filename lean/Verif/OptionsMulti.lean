import Verif.OptionsThms

/-!
# Options: repeatable options and numbers
-/

namespace Verif.Options

/-! ## Repeatable options -/

/-- Strings, each with the character that ends it. -/
def enc (ws : List Str) : Str := (ws.map (· ++ [nul])).flatten

/-- The buffer that holds the strings. -/
def pack (n : Nat) (ws : List Str) : Str := enc ws ++ List.replicate (n - (enc ws).length) nul

/-- Words that can be kept apart. -/
def Clean (ws : List Str) : Prop := ∀ w ∈ ws, w ≠ [] ∧ nul ∉ w

theorem enc_cons (w : Str) (ws : List Str) : enc (w :: ws) = w ++ nul :: enc ws := by simp [enc]

theorem enc_append (xs ys : List Str) : enc (xs ++ ys) = enc xs ++ enc ys := by simp [enc]

theorem pack_length {n : Nat} {ws : List Str} (h : (enc ws).length ≤ n) : (pack n ws).length = n := by
  simp [pack]; omega

/-- No two characters 0 follow each other in the strings. -/
theorem enc_adj : ∀ {ws : List Str}, Clean ws → ∀ j, j + 1 < (enc ws).length →
    (enc ws)[j]?.getD nul ≠ nul ∨ (enc ws)[j + 1]?.getD nul ≠ nul := by
  intro ws
  induction ws with
  | nil => intro _ j h; simp [enc] at h
  | cons w ws ih =>
    intro hc j h
    have hw := hc w (by simp)
    have hc' : Clean ws := fun x hx => hc x (by simp [hx])
    rw [enc_cons] at h ⊢
    simp only [List.length_append, List.length_cons] at h
    by_cases h1 : j < w.length
    · left
      rw [List.getElem?_append_left h1, List.getElem?_eq_getElem h1]
      intro e
      exact hw.2 (e ▸ List.getElem_mem h1)
    · by_cases h2 : j = w.length
      · right
        subst h2
        rw [List.getElem?_append_right (by omega), show w.length + 1 - w.length = 0 + 1 by omega, List.getElem?_cons_succ]
        cases ws with
        | nil => simp [enc] at h
        | cons x xs =>
          have hx := hc' x (by simp)
          rw [enc_cons]
          cases x with
          | nil => exact absurd rfl hx.1
          | cons c x =>
            simp only [List.cons_append, List.getElem?_cons_zero, Option.getD_some]
            rintro rfl
            exact hx.2 (by simp)
      · rw [List.getElem?_append_right (by omega), List.getElem?_append_right (by omega),
          show j - w.length = (j - w.length - 1) + 1 by omega,
          show j + 1 - w.length = (j - w.length - 1 + 1) + 1 by omega, List.getElem?_cons_succ, List.getElem?_cons_succ]
        exact ih hc' _ (by omega)

theorem enc_last : ∀ {ws : List Str}, ws ≠ [] → (enc ws)[(enc ws).length - 1]?.getD nul = nul := by
  intro ws h
  have : ∃ l, enc ws = l ++ [nul] := by
    induction ws with
    | nil => exact absurd rfl h
    | cons w ws ih =>
      cases ws with
      | nil => exact ⟨w, by simp [enc]⟩
      | cons x xs =>
        obtain ⟨l, hl⟩ := ih (by simp)
        exact ⟨w ++ nul :: l, by rw [enc_cons, hl]; simp⟩
  obtain ⟨l, hl⟩ := this
  rw [hl]
  simp

theorem multiEnd_eq {buf : Str} {k : Nat} (hk : ¬ (k < buf.length - 1 ∧
    (buf[k]?.getD nul ≠ nul ∨ buf[k + 1]?.getD nul ≠ nul))) : ∀ (n i : Nat), i ≤ k → k - i ≤ n →
    (∀ j, i ≤ j → j < k → j < buf.length - 1 ∧ (buf[j]?.getD nul ≠ nul ∨ buf[j + 1]?.getD nul ≠ nul)) →
    multiEnd buf n i = k := by
  intro n
  induction n with
  | zero => intro i h1 h2 _; simp only [multiEnd]; omega
  | succ n ih =>
    intro i h1 h2 h3
    simp only [multiEnd]
    by_cases he : i = k
    · subst he
      rw [if_neg hk]
    · rw [if_pos (h3 i (Nat.le_refl _) (by omega))]
      exact ih (i + 1) (by omega) (by omega) fun j hj hj' => h3 j (by omega) hj'

theorem multiEnd_pack {n : Nat} {ws : List Str} (hc : Clean ws) (hn : (enc ws).length + 1 ≤ n) :
    multiEnd (pack n ws) (pack n ws).length 0 = (enc ws).length - 1 := by
  have hl := pack_length (n := n) (ws := ws) (by omega)
  have hnul : ∀ j, (enc ws).length ≤ j → (pack n ws)[j]?.getD nul = nul := by
    intro j hj
    unfold pack
    rw [List.getElem?_append_right hj, List.getElem?_replicate]
    split <;> rfl
  have hin : ∀ j, j < (enc ws).length → (pack n ws)[j]? = (enc ws)[j]? := by
    intro j hj
    unfold pack
    rw [List.getElem?_append_left hj]
  apply multiEnd_eq
  · rintro ⟨h1, h2⟩
    rcases Nat.eq_zero_or_pos (enc ws).length with h0 | h0
    · rw [hnul _ (by omega), hnul _ (by omega)] at h2
      simp at h2
    · rw [hin _ (by omega), hnul _ (by omega), enc_last (by rintro rfl; simp [enc] at h0)] at h2
      simp at h2
  · omega
  · rw [hl]; omega
  · intro j _ hj
    refine ⟨by rw [hl]; omega, ?_⟩
    rw [hin j (by omega), hin (j + 1) (by omega)]
    exact enc_adj hc j (by omega)

theorem replicate_split (a b : Nat) : List.replicate (a + b) nul = List.replicate a nul ++ List.replicate b nul := by
  rw [List.replicate_append_replicate]

/-- Adding a word to the buffer. -/
theorem readMulti_pack {n : Nat} {ws : List Str} (hc : Clean ws) {w : Str} (h0 : 2 ≤ n)
    (hn : (enc ws).length + (if w = [] then 0 else w.length + 1) + 1 ≤ n) :
    readMulti (pack n ws) w = pack n (if w = [] then ws else ws ++ [w]) := by
  have hE : (enc ws).length + 1 ≤ n := by omega
  have hl := pack_length (n := n) (ws := ws) (by omega)
  unfold readMulti
  dsimp only
  rw [multiEnd_pack hc hE, hl]
  have hpos : (if (enc ws).length - 1 = 0 then (enc ws).length - 1 else (enc ws).length - 1 + 1) =
      (enc ws).length := by
    have : (enc ws).length ≠ 1 := by
      cases ws with
      | nil => simp [enc]
      | cons x xs =>
        have := hc x (by simp)
        have hx : x.length ≠ 0 := fun h => this.1 (List.length_eq_zero_iff.1 h)
        rw [enc_cons]
        simp only [List.length_append, List.length_cons]
        omega
    split <;> omega
  rw [hpos]
  have htake : (w ++ [nul]).take (n - ((enc ws).length - 1 + 1)) = w ++ [nul] := by
    apply List.take_of_length_le
    simp only [List.length_append, List.length_cons, List.length_nil]
    split at hn
    · rename_i hw
      simp only [hw, List.length_nil]
      omega
    · omega
  have hput : putStr (pack n ws) (enc ws).length (n - ((enc ws).length - 1 + 1)) w =
      pack n (if w = [] then ws else ws ++ [w]) := by
    unfold putStr
    rw [htake]
    unfold pack
    rw [List.take_left', List.drop_append]
    · rw [List.drop_of_length_le (by simp), List.nil_append, List.drop_replicate]
      split at hn
      · rename_i hw
        subst hw
        simp only [List.nil_append, List.length_cons, List.length_nil, if_true]
        rw [List.append_assoc]
        congr 1
        rw [show n - (enc ws).length = 1 + (n - (enc ws).length - 1) by omega, replicate_split]
        congr 2
        omega
      · rename_i hw
        rw [if_neg hw, enc_append]
        rw [show enc [w] = w ++ [nul] by simp [enc]]
        congr 2
        simp only [List.length_append, List.length_cons, List.length_nil]
        omega
    · rfl
  rw [hput]
  -- the last element is 0 already
  have hE' : (enc (if w = [] then ws else ws ++ [w])).length + 1 ≤ n := by
    split
    · exact hE
    · rename_i hw
      rw [if_neg hw] at hn
      rw [enc_append, show enc [w] = w ++ [nul] by simp [enc]]
      simp only [List.length_append, List.length_cons, List.length_nil]
      omega
  generalize (if w = [] then ws else ws ++ [w]) = ws' at hE' ⊢
  apply List.ext_getElem?
  intro i
  rw [List.getElem?_set]
  split
  · rename_i hi
    subst hi
    rw [pack_length (by omega), if_pos (by omega)]
    unfold pack
    rw [List.getElem?_append_right (by omega), List.getElem?_replicate, if_pos (by omega)]
  · rfl

/-- The readers find the strings again. -/
theorem walk_pack : ∀ (ws pre : List Str) (k fuel : Nat), Clean ws → 0 < k → ws.length < fuel →
    walk (enc pre ++ enc ws ++ List.replicate k nul) fuel (enc pre).length = .ok ws := by
  intro ws
  induction ws with
  | nil =>
    intro pre k fuel _ hk hf
    obtain ⟨f, rfl⟩ : ∃ f, fuel = f + 1 := ⟨fuel - 1, by omega⟩
    obtain ⟨m, rfl⟩ : ∃ m, k = m + 1 := ⟨k - 1, by omega⟩
    simp only [walk, List.append_assoc, List.drop_left, enc, List.map_nil, List.flatten_nil, List.nil_append,
      List.replicate_succ, if_true]
  | cons w ws ih =>
    intro pre k fuel hc hk hf
    obtain ⟨f, rfl⟩ : ∃ f, fuel = f + 1 := ⟨fuel - 1, by omega⟩
    have hw := hc w (by simp)
    have hdrop : (enc pre ++ enc (w :: ws) ++ List.replicate k nul).drop (enc pre).length =
        w ++ nul :: (enc ws ++ List.replicate k nul) := by
      rw [List.append_assoc, List.drop_left, enc_cons]; simp
    have htw : (w ++ nul :: (enc ws ++ List.replicate k nul)).takeWhile (· ≠ nul) = w := by
      rw [List.takeWhile_append_of_pos]
      · simp
      · intro c hcw
        simp only [ne_eq, decide_not, Bool.not_eq_eq_eq_not, Bool.not_true, decide_eq_false_iff_not]
        rintro rfl
        exact hw.2 hcw
    have hrec := ih (pre ++ [w]) k f (fun x hx => hc x (by simp [hx])) hk (by simpa using hf)
    have e1 : enc (pre ++ [w]) ++ enc ws = enc pre ++ enc (w :: ws) := by
      rw [enc_append, enc_cons]; simp [enc]
    have e2 : (enc (pre ++ [w])).length = (enc pre).length + w.length + 1 := by
      rw [enc_append]; simp [enc]; omega
    rw [e1, e2] at hrec
    simp only [walk, hdrop]
    cases w with
    | nil => exact absurd rfl hw.1
    | cons c w =>
      have hcn : c ≠ nul := by rintro rfl; exact hw.2 (by simp)
      simp only [List.cons_append] at htw ⊢
      rw [if_neg hcn, htw, if_neg (by simp), hrec]

theorem added_cons (n : String) (x : String × Asg) (l : List (String × Asg)) :
    added n (x :: l) = added n [x] ++ added n l := by
  unfold added
  rw [show x :: l = [x] ++ l from rfl, List.filterMap_append]

theorem fold_multi (n : String) {N : Nat} (h0 : 2 ≤ N) : ∀ (l : List (String × Asg)) (t : St) (ws : List Str),
    (∀ x ∈ l, x.1 = n → ∃ s, x.2 = .add s) → (∀ s ∈ added n l, nul ∉ s) → Clean ws →
    (enc (ws ++ (added n l).filter (· ≠ []))).length + 1 ≤ N → t.val n = .multi (pack N ws) →
    (l.foldl apply t).val n = .multi (pack N (ws ++ (added n l).filter (· ≠ []))) := by
  intro l
  induction l with
  | nil => intro t ws _ _ _ _ ht; simp [added, ht]
  | cons x l ih =>
    intro t ws hm hn hc hl ht
    rw [List.foldl_cons]
    obtain ⟨m, a⟩ := x
    rw [added_cons] at hn hl ⊢
    by_cases hx : m = n
    · subst hx
      obtain ⟨s, hs⟩ := hm _ List.mem_cons_self rfl
      dsimp only at hs
      subst hs
      have e1 : added m [(m, Asg.add s)] = [s] := by simp [added]
      rw [e1] at hn hl ⊢
      rw [List.filter_append] at hl ⊢
      have hns := hn s (by simp)
      have hstep : (apply t (m, .add s)).val m = .multi (pack N (if s = [] then ws else ws ++ [s])) := by
        unfold apply
        dsimp only
        rw [ht]
        dsimp only [St.set]
        rw [if_pos rfl, readMulti_pack hc h0]
        rw [enc_append, enc_append] at hl
        simp only [List.length_append] at hl
        split
        · omega
        · rename_i hs
          have : List.filter (· ≠ []) [s] = [s] := by simp [hs]
          rw [this] at hl
          have : (enc [s]).length = s.length + 1 := by simp [enc]
          omega
      have hc' : Clean (if s = [] then ws else ws ++ [s]) := by
        split
        · exact hc
        · rename_i hs
          intro w hw
          rcases List.mem_append.1 hw with hw | hw
          · exact hc w hw
          · rw [List.mem_singleton.1 hw]; exact ⟨hs, hns⟩
      have e2 : (if s = [] then ws else ws ++ [s]) ++ List.filter (· ≠ []) (added m l) =
          ws ++ (List.filter (· ≠ []) [s] ++ List.filter (· ≠ []) (added m l)) := by
        split
        · rename_i hs; simp [hs]
        · rename_i hs; simp [hs]
      rw [← e2] at hl ⊢
      exact ih _ _ (fun x hx => hm x (by simp [hx])) (fun y hy => hn y (by simp [hy])) hc' hl hstep
    · have e1 : added n [(m, a)] = [] := by simp [added, hx]
      rw [e1, List.nil_append] at hn hl ⊢
      refine ih _ _ (fun x hx => hm x (by simp [hx])) hn hc hl ?_
      have hx' : ¬ n = m := fun h => hx h.symm
      rw [← ht]
      unfold apply
      dsimp only
      split
      · simp [St.set, hx']
      · simp [St.set, hx']
      · simp [St.set, hx']
      · split <;> simp [St.set, hx']

/-- The strings added to an option are among the arguments, in their order. -/
theorem added_sublist (n : String) {tbl : List Entry} : ∀ (k : Nat) (as : List Str) {l : List (String × Asg)},
    as.length ≤ k → asgs tbl as = .ok l → ∃ bs, List.Sublist bs as.tail ∧ added n l = bs := by
  intro k
  induction k with
  | zero =>
    intro as l hk h
    have : as = [] := List.length_eq_zero_iff.1 (by omega)
    subst this
    rw [asgs] at h
    cases h
    exact ⟨[], by simp, rfl⟩
  | succ k ih =>
    intro as l hk h
    cases as with
    | nil => rw [asgs] at h; cases h; exact ⟨[], by simp, rfl⟩
    | cons w ws =>
      simp only [List.length_cons] at hk
      rw [asgs] at h
      cases hl : lookup tbl w with
      | none => rw [hl] at h; cases h
      | some p =>
        obtain ⟨e, a⟩ := p
        have hm := lookup_some hl
        rw [hl] at h
        have key : ∀ {y : String × Asg} {ws' : List Str} {z : List Str}, ws'.length ≤ k →
            (asgs tbl ws').map (y :: ·) = .ok l → List.Sublist (added n [y]) z → List.Sublist (z ++ ws'.tail) ws →
            ∃ bs, List.Sublist bs ws ∧ added n l = bs := by
          intro y ws' z hk' hy hz hs
          cases hw : asgs tbl ws' with
          | error z => rw [hw] at hy; cases hy
          | ok l' =>
            rw [hw] at hy
            cases hy
            obtain ⟨bs, h1, h2⟩ := ih ws' hk' hw
            refine ⟨_, ?_, rfl⟩
            rw [added_cons, h2]
            exact (hz.append h1).trans hs
        have hnil : ∀ m a, (∀ s, a ≠ Asg.add s) → List.Sublist (added n [(m, a)]) [] := by
          intro m a ha
          have : added n [(m, a)] = [] := by
            unfold added
            cases a with
            | add s => exact absurd rfl (ha s)
            | bool b => simp
            | num b => simp
            | str b => simp
          rw [this]
          exact List.Sublist.refl _
        have hone : ∀ m s, List.Sublist (added n [(m, Asg.add s)]) [s] := by
          intro m s
          by_cases hms : m = n
          · simp [added, hms]
          · simp [added, hms]
        cases a with
        | set b => exact key (z := []) (by omega) h (hnil _ _ (by simp)) (by simpa using List.tail_sublist ws)
        | value =>
          cases ws with
          | nil => cases h
          | cons v vs =>
            simp only [List.length_cons] at hk
            have hty := value_ty hm.2
            have hvs : List.Sublist ([] ++ vs.tail) (v :: vs) := by
              simpa using (List.tail_sublist vs).trans (List.sublist_cons_self v vs)
            dsimp only at h
            cases hT : e.ty with
            | bool => exact absurd hT hty
            | str =>
              rw [hT] at h
              dsimp only at h
              split at h
              · exact key (z := []) (by simp only [List.length_cons]; omega) h (hnil _ _ (by simp)) (by simp)
              · exact key (z := []) (by omega) h (hnil _ _ (by simp)) hvs
            | multi =>
              rw [hT] at h
              exact key (z := [v]) (by omega) h (hone _ _) (by simpa using List.tail_sublist vs)
            | uint lo hi =>
              rw [hT] at h
              dsimp only at h
              split at h
              · cases h
              · exact key (z := []) (by omega) h (hnil _ _ (by simp)) hvs
            | uint64 lo hi =>
              rw [hT] at h
              dsimp only at h
              split at h
              · cases h
              · exact key (z := []) (by omega) h (hnil _ _ (by simp)) hvs
            | int lo hi =>
              rw [hT] at h
              dsimp only at h
              split at h
              · cases h
              · exact key (z := []) (by omega) h (hnil _ _ (by simp)) hvs

theorem enc_le : ∀ {bs as : List Str}, List.Sublist bs as → (enc (bs.filter (· ≠ []))).length ≤ (clientOps as).length := by
  intro bs as h
  induction h with
  | slnil => simp [enc]
  | cons a _ ih => rw [flatten_cons']; simp only [List.length_append]; omega
  | cons_cons a _ ih =>
    rw [flatten_cons', List.filter_cons]
    split
    · rw [enc_cons]
      simp only [quoteArg, List.length_append, List.length_cons, List.length_nil]
      omega
    · simp only [List.length_append]; omega

/-- C53: the readers of a repeatable option (`-suppress`) see exactly the non-empty strings given for
it, in order, and never leave the buffer. -/
theorem C53_multi (win : Bool) {max : Nat} {as : List Str} (hnul : ∀ a ∈ as, nul ∉ a)
    (hl : (clientOps as).length ≤ max) {l : List (String × Asg)} (ha : asgs (table win) as = .ok l)
    {e : Entry} (he : e ∈ table win) (hm : e.ty = .multi) {t : St} (h0 : 2 ≤ max)
    (ht : t.val e.name = .multi (List.replicate max nul)) :
    ∃ buf, (l.foldl apply t).val e.name = .multi buf ∧ buf.length = max ∧
      walk buf max 0 = .ok ((added e.name l).filter (· ≠ [])) := by
  obtain ⟨bs, hbs, hb⟩ := added_sublist e.name as.length as (Nat.le_refl _) ha
  have hmem : ∀ s ∈ added e.name l, nul ∉ s := fun s hs =>
    hnul s (List.mem_of_mem_tail (hbs.subset (hb ▸ hs)))
  have hlen : (enc ((added e.name l).filter (· ≠ []))).length + 1 ≤ max := by
    rw [hb]
    have := enc_le hbs
    cases as with
    | nil =>
      simp only [List.tail_nil, List.sublist_nil] at hbs
      subst hbs
      simp [enc]
      omega
    | cons a as =>
      rw [flatten_cons'] at hl
      simp only [quoteArg, List.length_append, List.length_cons, List.length_nil, List.tail_cons] at hl this
      omega
  have hf := fold_multi e.name h0 l t [] (fun x hx hn => ?_) hmem (by simp [Clean]) (by simpa using hlen)
    (by rw [ht]; simp [pack, enc])
  · rw [List.nil_append] at hf
    refine ⟨_, hf, pack_length (Nat.le_of_succ_le hlen), ?_⟩
    have hclean : Clean ((added e.name l).filter (· ≠ [])) := by
      intro w hw
      have := List.mem_filter.1 hw
      exact ⟨by simpa using this.2, hmem w this.1⟩
    have := walk_pack ((added e.name l).filter (· ≠ [])) []
      (max - (enc ((added e.name l).filter (· ≠ []))).length) max hclean (by omega) ?_
    · simpa [enc, pack] using this
    · have : ∀ ws : List Str, ws.length ≤ (enc ws).length := by
        intro ws
        induction ws with
        | nil => simp
        | cons w ws ih => rw [enc_cons]; simp only [List.length_append, List.length_cons]; omega
      have := this ((added e.name l).filter (· ≠ []))
      omega
  · obtain ⟨f, hf, hfn, hfm⟩ := asgs_ty as.length as (Nat.le_refl _) ha x hx
    have : e = f := table_name win he hf (hfn.trans hn).symm
    exact hfm.2 (this ▸ hm)

/-- Without the bound on the length the readers can leave the buffer: eight characters, filled by
two strings. -/
example : walk (readMulti (readMulti (List.replicate 8 nul) "abc".toList) "defg".toList) 8 0 = .oob := by
  decide +kernel

end Verif.Options
