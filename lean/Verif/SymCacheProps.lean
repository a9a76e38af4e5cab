import Verif.SymCache

/-
The offset lists of the symbol cache (C34): what a lookup returns after any
sequence of additions, and exactly which sequences abort the process.
-/

namespace Verif.SymCache

/-! ## Specification -/

/-- What a lookup should return after the offsets `seq` were added for a symbol (not
empty): the distinct offsets in order of first addition, where 0 ("not found")
only counts as long as nothing else was added. -/
def answer (seq : List Nat) : List Nat :=
  match seq.dropWhile (· == 0) with
  | [] => if seq = [] then [] else [0]
  | x :: xs => (x :: xs).eraseDups

/-- A sequence in which, after any zeros, one offset is followed by itself only and
then by a zero. -/
def Refused (seq : List Nat) : Prop :=
  ∃ n m a rest, a ≠ 0 ∧ seq = List.replicate n 0 ++ List.replicate (m + 1) a ++ 0 :: rest

/-- The offsets added for one symbol. -/
def offsetsOf (ops : List (Str × Nat)) (sym : Str) : List Nat :=
  (ops.filter fun e => e.1 = sym).map (·.2)

/-- Additions to a table, one after the other. -/
def adds (t : Table) (ops : List (Str × Nat)) : Except Stop Table :=
  ops.foldlM (fun t e => (symbolAdd t e.1 e.2).map (·.1)) t

/-! ## One list -/

/-- The change of the list as a function of lists (`[]`: no list yet). -/
def upd (l : List Nat) (x : Nat) : Option (List Nat) :=
  if l = [0] then some [x]
  else if l.length = 1 ∧ x = 0 then none
  else if x ∈ l then some l else some (l ++ [x])

/-- Shape of the offset lists. -/
structure OInv (o : OList) : Prop where
  ne : o.list ≠ []
  nodup : o.list.Nodup
  zero : o.list = [0] ∨ ∃ a r, o.list = a :: r ∧ a ≠ 0 ∧ r.head? ≠ some 0
  bound : ∀ x ∈ o.list, x + 1 < 2 ^ 64
  table : (o.table = none ∧ o.list.length < 3) ∨
    ∃ t, o.table = some t ∧ 3 ≤ o.list.length ∧ ∀ x, x + 1 < 2 ^ 64 → (x + 1 ∈ t ↔ x ∈ o.list)

theorem key_eq {x : Nat} (h : x + 1 < 2 ^ 64) : key x = x + 1 := Nat.mod_eq_of_lt h

theorem append_inv {o : OList} {x : Nat} (hn : o.list.Nodup)
    (hb : ∀ y ∈ o.list, y + 1 < 2 ^ 64)
    (ht : (o.table = none ∧ o.list.length < 3) ∨
      ∃ t, o.table = some t ∧ 3 ≤ o.list.length ∧
        ∀ x, x + 1 < 2 ^ 64 → (x + 1 ∈ t ↔ x ∈ o.list))
    (hx : x ∉ o.list) (hxb : x + 1 < 2 ^ 64)
    (hz : o.list ++ [x] = [0] ∨ ∃ a r, o.list ++ [x] = a :: r ∧ a ≠ 0 ∧ r.head? ≠ some 0) :
    OInv (o.append x) ∧ (o.append x).list = o.list ++ [x] := by
  have hl : (o.append x).list = o.list ++ [x] := by
    unfold OList.append
    dsimp only
    by_cases h : (o.list ++ [x]).length ≥ 3
    · rw [if_pos h]; split <;> rfl
    · rw [if_neg h]
  refine ⟨⟨?_, ?_, ?_, ?_, ?_⟩, hl⟩
  · rw [hl]; simp
  · rw [hl, List.nodup_append]
    refine ⟨hn, by simp, ?_⟩
    intro a ha b hb' h
    simp at hb'
    subst hb'; subst h
    exact hx ha
  · rw [hl]; exact hz
  · rw [hl]
    intro y hy
    rcases List.mem_append.1 hy with h | h
    · exact hb y h
    · simp at h; subst h; exact hxb
  · rw [hl]
    unfold OList.append
    by_cases h3 : (o.list ++ [x]).length ≥ 3
    · right
      rw [if_pos h3]
      rcases ht with ⟨h1, _⟩ | ⟨t, h1, _, h2⟩
      · simp only [h1]
        refine ⟨_, rfl, h3, ?_⟩
        intro y hy
        rw [List.mem_map]
        constructor
        · rintro ⟨z, hz, he⟩
          have hzb : z + 1 < 2 ^ 64 := by
            rcases List.mem_append.1 hz with h | h
            · exact hb z h
            · simp at h; subst h; exact hxb
          rw [key_eq hzb] at he
          have : z = y := by omega
          exact this ▸ hz
        · intro hm
          exact ⟨y, hm, key_eq hy⟩
      · simp only [h1]
        refine ⟨_, rfl, h3, ?_⟩
        intro y hy
        rw [key_eq hxb, List.mem_cons, h2 y hy, List.mem_append, List.mem_singleton]
        constructor
        · rintro (h | h)
          · exact .inr (by omega)
          · exact .inl h
        · rintro (h | h)
          · exact .inr h
          · exact .inl (by omega)
    · left
      rw [if_neg h3]
      rcases ht with ⟨h1, _⟩ | ⟨t, _, h1, _⟩
      · exact ⟨h1, by omega⟩
      · simp at h3; omega

theorem add_spec {o : OList} {x : Nat} (hi : OInv o) (hx : x + 1 < 2 ^ 64) :
    match upd o.list x with
    | none => o.add x = .error .abort
    | some l => ∃ o' b, o.add x = .ok (o', b) ∧ o'.list = l ∧ OInv o' ∧ (b = false → o' = o) := by
  unfold upd OList.add
  by_cases h0 : o.list = [0]
  · rw [if_pos h0, if_pos h0]
    have ht : o.table = none := by
      rcases hi.table with ⟨h, _⟩ | ⟨t, _, h, _⟩
      · exact h
      · rw [h0] at h; simp at h
    simp only [ht]
    refine ⟨_, _, rfl, rfl, ⟨by simp, by simp, ?_, by simpa using hx, .inl ⟨rfl, by simp⟩⟩, by simp⟩
    by_cases hx0 : x = 0
    · subst hx0; exact .inl rfl
    · exact .inr ⟨x, [], rfl, hx0, by simp⟩
  · rw [if_neg h0, if_neg h0]
    by_cases h1 : o.list.length = 1 ∧ x = 0
    · rw [if_pos h1, if_pos h1]
    · rw [if_neg h1, if_neg h1]
      have hd : o.has x = decide (x ∈ o.list) := by
        unfold OList.has
        rcases hi.table with ⟨h, _⟩ | ⟨t, h, _, h2⟩
        · simp [h]
        · simp only [h, tableHas, key_eq hx]
          rw [Bool.eq_iff_iff]
          simp
          exact h2 x hx
      rw [hd]
      by_cases hm : x ∈ o.list
      · simp only [hm, if_pos, decide_true]
        exact ⟨o, false, rfl, rfl, hi, fun _ => rfl⟩
      · simp only [hm, if_neg, decide_false, not_false_eq_true, Bool.false_eq_true]
        have hz : o.list ++ [x] = [0] ∨
            ∃ a r, o.list ++ [x] = a :: r ∧ a ≠ 0 ∧ r.head? ≠ some 0 := by
          rcases hi.zero with h | ⟨a, r, h, ha, hr⟩
          · exact absurd h h0
          · right
            refine ⟨a, r ++ [x], by rw [h]; rfl, ha, ?_⟩
            cases r with
            | nil =>
              simp
              intro hx0
              exact h1 ⟨by rw [h]; rfl, hx0⟩
            | cons b r => simpa using hr
        obtain ⟨k1, k2⟩ := append_inv hi.nodup hi.bound hi.table hm hx hz
        exact ⟨_, true, rfl, k2, k1, by simp⟩

theorem new_spec {x : Nat} (hx : x + 1 < 2 ^ 64) :
    OInv ((OList.mk [] none).append x) ∧ ((OList.mk [] none).append x).list = [x] := by
  refine append_inv (o := OList.mk [] none) (by simp) (by simp) (.inl ⟨rfl, by simp⟩) (by simp) hx ?_
  by_cases hx0 : x = 0
  · subst hx0; exact .inl rfl
  · exact .inr ⟨x, [], rfl, hx0, by simp⟩

/-! ## The table -/

/-- Shape of a table: no name twice, all lists in shape. -/
structure TInv (t : Table) : Prop where
  names : (t.map (·.1)).Nodup
  lists : ∀ e ∈ t, OInv e.2

theorem find_some {t : Table} {sym : Str} {o : OList} (h : t.find sym = some o) :
    (sym, o) ∈ t := by
  unfold Table.find at h
  rw [Option.map_eq_some_iff] at h
  obtain ⟨e, h1, h2⟩ := h
  have h3 := List.mem_of_find?_eq_some h1
  have h4 := List.find?_some h1
  simp at h4
  obtain ⟨a, b⟩ := e
  simp at h4 h2
  subst h4; subst h2
  exact h3

theorem find_none {t : Table} {sym : Str} (h : t.find sym = none) :
    sym ∉ t.map (·.1) := by
  unfold Table.find at h
  simp at h
  intro hm
  rw [List.mem_map] at hm
  obtain ⟨e, h1, h2⟩ := hm
  obtain ⟨a, b⟩ := e
  exact h a b h1 h2

theorem find_of_mem {t : Table} (hn : (t.map (·.1)).Nodup) {sym : Str} {o : OList}
    (h : (sym, o) ∈ t) : t.find sym = some o := by
  induction t with
  | nil => simp at h
  | cons e t ih =>
    rw [List.map_cons, List.nodup_cons] at hn
    unfold Table.find
    rw [List.find?_cons]
    rcases List.mem_cons.1 h with h | h
    · subst h; simp
    · have : e.1 ≠ sym := by
        intro he
        exact hn.1 (List.mem_map.2 ⟨_, h, he.symm⟩)
      simp [this]
      have := ih hn.2 h
      unfold Table.find at this
      simpa using this

theorem set_names (t : Table) (sym : Str) (o : OList) :
    (t.set sym o).map (·.1) = t.map (·.1) := by
  unfold Table.set
  rw [List.map_map]
  apply List.map_congr_left
  intro e _
  simp only [Function.comp]
  split <;> rfl

theorem find_set (t : Table) (sym s : Str) (o : OList) :
    (t.set sym o).find s = if s = sym then (t.find s).map fun _ => o else t.find s := by
  unfold Table.set Table.find
  rw [List.find?_map]
  have : ((fun e : Str × OList => decide (e.1 = s)) ∘
      fun e => if e.1 = sym then (e.1, o) else e) = fun e => decide (e.1 = s) := by
    funext e
    simp only [Function.comp]
    split <;> rfl
  rw [this]
  cases hf : t.find? fun e => decide (e.1 = s) with
  | none => simp
  | some e =>
    have := List.find?_some hf
    simp at this
    by_cases hs : s = sym
    · simp [hs, this]
    · simp [hs, this]

theorem find_snoc (t : Table) (sym s : Str) (o : OList) :
    Table.find (t ++ [(sym, o)]) s =
      (t.find s).or (if s = sym then some o else none) := by
  unfold Table.find
  rw [List.find?_append]
  cases hf : t.find? fun e => decide (e.1 = s) with
  | some e => simp
  | none =>
    by_cases hs : s = sym
    · simp [hs]
    · have hs' : ¬ sym = s := fun h => hs h.symm
      simp [hs, hs']

/-- The list of a symbol, empty when there is none. -/
def listOf (t : Table) (sym : Str) : List Nat := (lookupTable t sym).getD []

theorem listOf_ne {t : Table} (hi : TInv t) {sym : Str} :
    lookupTable t sym = if listOf t sym = [] then none else some (listOf t sym) := by
  unfold listOf lookupTable
  cases h : t.find sym with
  | none => simp
  | some o =>
    have := (hi.lists _ (find_some h)).ne
    simp at this
    simp [this]

theorem symbolAdd_spec {t : Table} {sym : Str} {x : Nat} (hi : TInv t) (hx : x + 1 < 2 ^ 64) :
    match upd (listOf t sym) x with
    | none => symbolAdd t sym x = .error .abort
    | some l => ∃ t' b, symbolAdd t sym x = .ok (t', b) ∧ TInv t' ∧
        (∀ s, listOf t' s = if s = sym then l else listOf t s) ∧ (b = false → t' = t) := by
  unfold symbolAdd
  cases hf : t.find sym with
  | none =>
    have hl : listOf t sym = [] := by simp [listOf, lookupTable, hf]
    rw [hl]
    simp only [upd]
    simp only [List.nil_eq, List.cons_ne_nil, List.length_nil, Nat.zero_ne_one, false_and,
      if_false, List.not_mem_nil, List.nil_append]
    obtain ⟨k1, k2⟩ := new_spec hx
    refine ⟨_, _, rfl, ⟨?_, ?_⟩, ?_, by simp⟩
    · rw [List.map_append, List.nodup_append]
      refine ⟨hi.names, by simp, ?_⟩
      intro a ha b hb h
      simp at hb
      subst hb; subst h
      exact find_none hf ha
    · intro e he
      rcases List.mem_append.1 he with h | h
      · exact hi.lists e h
      · simp at h; subst h; exact k1
    · intro s
      unfold listOf lookupTable
      rw [find_snoc]
      by_cases hs : s = sym
      · subst hs; simp [hf, k2]
      · simp [hs]
  | some o =>
    have hl : listOf t sym = o.list := by simp [listOf, lookupTable, hf]
    rw [hl]
    have ho := hi.lists _ (find_some hf)
    have hs := add_spec (x := x) ho hx
    cases hu : upd o.list x with
    | none =>
      simp only [hu] at hs
      simp only [hs]; rfl
    | some l =>
      simp only [hu] at hs
      obtain ⟨o', b, h1, h2, h3, h4⟩ := hs
      simp only [h1]
      refine ⟨t.set sym o', b, rfl, ⟨?_, ?_⟩, ?_, ?_⟩
      · rw [set_names]; exact hi.names
      · intro e he
        unfold Table.set at he
        rw [List.mem_map] at he
        obtain ⟨e', he', h⟩ := he
        split at h
        · subst h; exact h3
        · subst h; exact hi.lists _ he'
      · intro s
        unfold listOf lookupTable
        rw [find_set]
        by_cases hs : s = sym
        · subst hs; simp [hf, h2]
        · simp [hs]
      · intro hb
        have := h4 hb
        subst this
        unfold Table.set
        conv => rhs; rw [← List.map_id t]
        apply List.map_congr_left
        intro e he
        split
        · rename_i hes
          have : t.find sym = some e.2 := find_of_mem hi.names (hes ▸ he)
          rw [hf] at this
          simp at this
          rw [this]; rfl
        · rfl

/-! ## Sequences -/

/-- The list after a sequence of additions. -/
def upds (l : List Nat) (seq : List Nat) : Option (List Nat) := seq.foldlM upd l

theorem adds_spec {ops : List (Str × Nat)} (hb : ∀ e ∈ ops, e.2 + 1 < 2 ^ 64) :
    ∀ {t : Table}, TInv t →
    ((∃ sym, upds (listOf t sym) (offsetsOf ops sym) = none) ∧ adds t ops = .error .abort) ∨
    ∃ t', adds t ops = .ok t' ∧ TInv t' ∧
      ∀ sym, upds (listOf t sym) (offsetsOf ops sym) = some (listOf t' sym) := by
  induction ops with
  | nil =>
    intro t hi
    exact .inr ⟨t, rfl, hi, fun _ => rfl⟩
  | cons e ops ih =>
    intro t hi
    obtain ⟨sym, x⟩ := e
    have hs := symbolAdd_spec (sym := sym) hi (hb _ (List.mem_cons_self ..))
    simp only at hs
    have ho : ∀ s, offsetsOf ((sym, x) :: ops) s =
        if s = sym then x :: offsetsOf ops s else offsetsOf ops s := by
      intro s
      unfold offsetsOf
      rw [List.filter_cons]
      by_cases h : s = sym
      · subst h; simp
      · have h' : ¬ sym = s := fun h' => h h'.symm
        simp [h, h']
    cases hu : upd (listOf t sym) x with
    | none =>
      simp only [hu] at hs
      refine .inl ⟨⟨sym, ?_⟩, ?_⟩
      · rw [ho, if_pos rfl]
        simp [upds, hu]
      · simp [adds, hs, Except.map]; rfl
    | some l =>
      simp only [hu] at hs
      obtain ⟨t', b, h1, h2, h3, _⟩ := hs
      have hr : adds t ((sym, x) :: ops) = adds t' ops := by
        simp [adds, h1, Except.map]; rfl
      have hq : ∀ s, upds (listOf t s) (offsetsOf ((sym, x) :: ops) s) =
          upds (listOf t' s) (offsetsOf ops s) := by
        intro s
        rw [ho, h3]
        by_cases h : s = sym
        · subst h; simp [upds, hu]
        · simp [h]
      rw [hr]
      rcases ih (fun e he => hb e (List.mem_cons_of_mem _ he)) h2 with ⟨⟨s, k1⟩, k2⟩ | ⟨t'', k1, k2, k3⟩
      · exact .inl ⟨⟨s, by rw [hq]; exact k1⟩, k2⟩
      · exact .inr ⟨t'', k1, k2, fun s => by rw [hq]; exact k3 s⟩

theorem snoc_ind {α : Type} {P : List α → Prop} (h0 : P [])
    (h : ∀ l x, P l → P (l ++ [x])) (l : List α) : P l := by
  have : ∀ l : List α, P l.reverse := by
    intro l
    induction l with
    | nil => exact h0
    | cons x l ih => rw [List.reverse_cons]; exact h _ _ ih
  simpa using this l.reverse

theorem refused_snoc {l : List Nat} {x : Nat} :
    Refused (l ++ [x]) ↔ Refused l ∨
      (x = 0 ∧ ∃ n m a, a ≠ 0 ∧ l = List.replicate n 0 ++ List.replicate (m + 1) a) := by
  constructor
  · rintro ⟨n, m, a, rest, ha, h⟩
    rcases List.eq_nil_or_concat rest with hr | ⟨r, y, hr⟩
    · subst hr
      have := List.append_inj' h rfl
      right
      exact ⟨by simpa using this.2, n, m, a, ha, this.1⟩
    · subst hr
      left
      rw [List.concat_eq_append, ← List.cons_append, ← List.append_assoc] at h
      have := List.append_inj' h rfl
      exact ⟨n, m, a, r, ha, this.1⟩
  · rintro (⟨n, m, a, rest, ha, h⟩ | ⟨hx, n, m, a, ha, h⟩)
    · exact ⟨n, m, a, rest ++ [x], ha, by rw [h]; simp⟩
    · exact ⟨n, m, a, [], ha, by rw [h, hx]⟩

theorem eraseDups_one {l : List Nat} (h : l.eraseDups.length = 1) :
    ∃ m a, l = List.replicate (m + 1) a := by
  cases hl : l.eraseDups with
  | nil => rw [hl] at h; simp at h
  | cons a r =>
    rw [hl] at h
    have : r = [] := by simpa using h
    subst this
    have hm : ∀ b ∈ l, b = a := by
      intro b hb
      have := List.mem_eraseDups.2 hb
      rw [hl] at this
      simpa using this
    cases l with
    | nil => simp at hl
    | cons c l =>
      exact ⟨l.length, a, List.eq_replicate_iff.2 ⟨rfl, hm⟩⟩

theorem eraseDups_replicate (m a : Nat) : (List.replicate (m + 1) a).eraseDups = [a] := by
  rw [List.replicate_succ, List.eraseDups_cons]
  have : (List.replicate m a).filter (fun b => !b == a) = [] := by
    rw [List.filter_eq_nil_iff]
    intro b hb
    rw [List.eq_of_mem_replicate hb]
    simp
  rw [this]; rfl

theorem upds_eq (seq : List Nat) :
    (Refused seq ∧ upds [] seq = none) ∨ (¬ Refused seq ∧ upds [] seq = some (answer seq)) := by
  induction seq using snoc_ind with
  | h0 =>
    right
    refine ⟨?_, rfl⟩
    rintro ⟨n, m, a, rest, _, h⟩
    simp at h
  | h l x ih =>
    have hf : upds [] (l ++ [x]) = (upds [] l).bind (fun r => upd r x) := by
      unfold upds
      rw [List.foldlM_append]
      cases List.foldlM upd [] l with
      | none => rfl
      | some r =>
        show ((List.foldlM upd r [x]) : Option _) = upd r x
        rw [List.foldlM_cons]
        cases upd r x <;> rfl
    rcases ih with ⟨h1, h2⟩ | ⟨h1, h2⟩
    · left
      exact ⟨refused_snoc.2 (.inl h1), by rw [hf, h2]; rfl⟩
    · rw [hf, h2, Option.bind_some]
      have hsplit := List.takeWhile_append_dropWhile (p := fun y : Nat => y == 0) (l := l)
      have htw : ∀ b ∈ l.takeWhile (fun y => y == 0), b = 0 := by
        intro b hb
        have : ∀ (l : List Nat) b, b ∈ l.takeWhile (fun y => y == 0) → b = 0 := by
          intro l
          induction l with
          | nil => simp
          | cons c l ih =>
            intro b hb
            rw [List.takeWhile_cons] at hb
            split at hb
            · rename_i hc
              rcases List.mem_cons.1 hb with h | h
              · subst h; simpa using hc
              · exact ih b h
            · simp at hb
        exact this l b hb
      cases hd : l.dropWhile (fun y => y == 0) with
      | nil =>
        -- only zeros so far
        rw [hd, List.append_nil] at hsplit
        rw [hsplit] at htw
        have hx : upd (answer l) x = some [x] := by
          unfold answer
          rw [hd]
          by_cases hl : l = []
          · simp [hl, upd]
          · simp [hl, upd]
        have ha : answer (l ++ [x]) = [x] := by
          unfold answer
          rw [List.dropWhile_append, hd]
          by_cases hx0 : x = 0
          · subst hx0; simp
          · have hxb : (x == 0) = false := by simpa using hx0
            simp [hxb, List.eraseDups_cons]
        right
        refine ⟨?_, by rw [hx, ha]⟩
        intro hr
        rcases refused_snoc.1 hr with h | ⟨_, n, m, a, ha0, h⟩
        · exact h1 h
        · exact ha0 (htw a (by rw [h]; simp))
      | cons y r =>
        have hy : y ≠ 0 := by
          have := List.head_dropWhile_not (fun y : Nat => y == 0) (l := l) (by rw [hd]; simp)
          simp only [hd, List.head_cons] at this
          simpa using this
        have hA : answer l = (y :: r).eraseDups := by unfold answer; rw [hd]
        have hA' : answer (l ++ [x]) = ((y :: r) ++ [x]).eraseDups := by
          unfold answer
          rw [List.dropWhile_append, hd]
          rfl
        have hne : (y :: r).eraseDups ≠ [0] := by
          rw [List.eraseDups_cons]
          intro h
          exact hy (List.cons.inj h).1
        rw [hA, hA']
        unfold upd
        rw [if_neg hne]
        by_cases hone : (y :: r).eraseDups.length = 1 ∧ x = 0
        · rw [if_pos hone]
          left
          refine ⟨?_, rfl⟩
          obtain ⟨m, a, hma⟩ := eraseDups_one hone.1
          have hay : a = y := by
            have : y ∈ List.replicate (m + 1) a := by rw [← hma]; simp
            exact (List.eq_of_mem_replicate this).symm
          refine refused_snoc.2 (.inr ⟨hone.2, (l.takeWhile (fun y => y == 0)).length, m, a,
            by rw [hay]; exact hy, ?_⟩)
          have hz : l.takeWhile (fun y => y == 0) =
              List.replicate (l.takeWhile (fun y => y == 0)).length 0 :=
            List.eq_replicate_iff.2 ⟨rfl, htw⟩
          rw [← hz, ← hma, ← hd]
          exact hsplit.symm
        · rw [if_neg hone]
          right
          constructor
          · intro hr
            rcases refused_snoc.1 hr with h | ⟨hx0, n, m, a, ha0, h⟩
            · exact h1 h
            · apply hone
              refine ⟨?_, hx0⟩
              have hab : (a == 0) = false := by simpa using ha0
              have : l.dropWhile (fun y => y == 0) = List.replicate (m + 1) a := by
                rw [h, List.dropWhile_append]
                have h0 : (List.replicate n 0).dropWhile (fun y : Nat => y == 0) = [] := by
                  clear h h1 h2 hr
                  induction n with
                  | zero => rfl
                  | succ n ih => rw [List.replicate_succ, List.dropWhile_cons]; simp
                rw [h0, List.replicate_succ, List.dropWhile_cons]
                simp [hab]
              rw [← hd, this, eraseDups_replicate]
              rfl
          · rw [List.eraseDups_append]
            by_cases hm : x ∈ (y :: r).eraseDups
            · rw [if_pos hm]
              have hm' := List.mem_eraseDups.1 hm
              have : [x].removeAll (y :: r) = [] := by
                simp [List.removeAll, List.filter_cons]
                intro hxy
                exact (List.mem_cons.1 hm').resolve_left hxy
              rw [this]; simp
            · rw [if_neg hm]
              have hm' : ¬ x ∈ (y :: r) := fun h => hm (List.mem_eraseDups.2 h)
              have : [x].removeAll (y :: r) = [x] := by
                simp [List.removeAll, List.filter_cons]
                exact ⟨fun h => hm' (h ▸ List.mem_cons_self ..), fun h => hm' (List.mem_cons_of_mem _ h)⟩
              rw [this]; rfl

/-! ## C34 -/

theorem TInv.nil : TInv [] := ⟨by simp, by simp⟩

/-- C34: starting from an empty table, if no addition aborts then a lookup returns for
every symbol the distinct offsets added for it in order of first addition, the
"not found" offset 0 being replaced by the first other one; symbols never added
are not found.  Partial: some sequences abort the process (`C34_abort`), and the
offset 2^64 - 1 is excluded (`C34_max_offset`). -/
theorem C34_lookup_partial (ops : List (Str × Nat)) (hb : ∀ e ∈ ops, e.2 + 1 < 2 ^ 64)
    {t : Table} (h : adds [] ops = .ok t) (sym : Str) :
    lookupTable t sym =
      if offsetsOf ops sym = [] then none else some (answer (offsetsOf ops sym)) := by
  rcases adds_spec hb TInv.nil with ⟨_, h2⟩ | ⟨t', h1, h2, h3⟩
  · rw [h] at h2; cases h2
  · rw [h] at h1
    cases h1
    have h4 := h3 sym
    have : listOf [] sym = [] := rfl
    rw [this] at h4
    rcases upds_eq (offsetsOf ops sym) with ⟨_, k⟩ | ⟨_, k⟩
    · rw [k] at h4; cases h4
    · rw [k] at h4
      have h5 := Option.some.inj h4
      rw [listOf_ne h2, ← h5]
      have : answer (offsetsOf ops sym) = [] ↔ offsetsOf ops sym = [] := by
        unfold answer
        constructor
        · intro ha
          split at ha
          · split at ha
            · assumption
            · cases ha
          · rw [List.eraseDups_cons] at ha; cases ha
        · intro ha
          rw [ha]; rfl
      by_cases hz : offsetsOf ops sym = []
      · rw [if_pos hz, if_pos (this.2 hz)]
      · rw [if_neg hz, if_neg (fun h => hz (this.1 h))]

/-- C34: the process is aborted exactly when for some symbol a single distinct offset
was added and then 0. -/
theorem C34_abort (ops : List (Str × Nat)) (hb : ∀ e ∈ ops, e.2 + 1 < 2 ^ 64) :
    (∃ e, adds [] ops = .error e) ↔ ∃ sym, Refused (offsetsOf ops sym) := by
  rcases adds_spec hb TInv.nil with ⟨⟨s, h1⟩, h2⟩ | ⟨t', h1, h2, h3⟩
  · refine ⟨fun _ => ⟨s, ?_⟩, fun _ => ⟨_, h2⟩⟩
    rcases upds_eq (offsetsOf ops s) with ⟨k, _⟩ | ⟨_, k⟩
    · exact k
    · have : listOf [] s = [] := rfl
      rw [this, k] at h1; cases h1
  · constructor
    · rintro ⟨e, h⟩
      rw [h1] at h; cases h
    · rintro ⟨s, hs⟩
      have h4 := h3 s
      have : listOf [] s = [] := rfl
      rw [this] at h4
      rcases upds_eq (offsetsOf ops s) with ⟨_, k⟩ | ⟨k, _⟩
      · rw [k] at h4; cases h4
      · exact absurd hs k

/-- C34 fails for the largest offset: with three entries it is added again and again. -/
theorem C34_max_offset :
    ∃ t, adds [] [([102], 5), ([102], 6), ([102], 2 ^ 64 - 1), ([102], 2 ^ 64 - 1)] = .ok t ∧
      lookupTable t [102] = some [5, 6, 2 ^ 64 - 1, 2 ^ 64 - 1] := by
  refine ⟨_, rfl, ?_⟩
  decide +kernel

/-- C34: adding 0 (not found) after an offset aborts, and does not after two offsets. -/
theorem C34_zero_after :
    adds [] [([102], 5), ([102], 0)] = .error .abort ∧
    ∃ t, adds [] [([102], 5), ([102], 7), ([102], 0)] = .ok t ∧
      lookupTable t [102] = some [5, 7, 0] := by
  refine ⟨rfl, _, rfl, ?_⟩
  decide +kernel

/-- Two symbols, a negative entry replaced, duplicates before and after the table of
the third entry exists. -/
def sampleOps : List (Str × Nat) :=
  [([109], 0), ([102], 16), ([109], 0), ([109], 32), ([102], 16), ([109], 48), ([109], 32),
   ([109], 64), ([109], 48), ([109], 80)]

example : (∀ e ∈ sampleOps, e.2 + 1 < 2 ^ 64) ∧
    (∃ t, adds [] sampleOps = .ok t ∧ lookupTable t [109] = some [32, 48, 64, 80] ∧
      lookupTable t [102] = some [16] ∧ lookupTable t [120] = none) ∧
    answer (offsetsOf sampleOps [109]) = [32, 48, 64, 80] ∧
    ¬ (∃ e, adds [] sampleOps = .error e) := by
  refine ⟨by decide, ⟨_, rfl, by decide +kernel, by decide +kernel, by decide +kernel⟩,
    by decide +kernel, ?_⟩
  rintro ⟨e, h⟩
  cases h

end Verif.SymCache
