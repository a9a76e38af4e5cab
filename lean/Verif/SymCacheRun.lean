import Verif.SymCacheRead

/-
Runs of the symbol cache over several modules and processes (C33, C34): what a
lookup returns was added for the same module, nothing crashes, and unloading and
loading a module, or ending the process, loses nothing.
-/

namespace Verif.SymCache

/-! ## Specification -/

/-- No module loaded, no cache file. -/
def State.init : State := ⟨[], fun _ => none⟩

/-- In the run `ops` the offset was added for this symbol of a loaded module with
these consistency fields. -/
def Added (C : Conf) (ops : List Op) (id : Ident) (sym : Str) (o : Nat) : Prop :=
  ∃ pre m post s c, ops = pre ++ .add m sym o :: post ∧ run C State.init pre = .ok s ∧
    s.find m.path = some c ∧ c.ident = id

/-- What is assumed of the operations: consistency fields in range, names and offsets
the format can hold. -/
def GoodOp : Op → Prop
  | .load m => GoodIdent m.ident
  | .add _ sym offs => GoodName sym ∧ offs < 2 ^ 32
  | _ => True

/-- A hashtable walk yields every entry once. -/
def GoodConf (C : Conf) : Prop := ∀ t, (C.order t).Perm t

/-! ## Soundness -/

/-- A table whose offsets all satisfy `A`. -/
def From (A : Str → Nat → Prop) (t : Table) : Prop := ∀ e ∈ t, ∀ o ∈ e.2.list, A e.1 o

/-- A file written for a module with a good table. -/
def GoodFile (A : Ident → Str → Nat → Prop) (f : Str) : Prop :=
  ∃ id debug es, GoodIdent id ∧ GoodTable es ∧ From (A id) es ∧ f = writeFile id debug es

structure Inv (A : Ident → Str → Nat → Prop) (s : State) : Prop where
  paths : (s.mods.map (·.1)).Nodup
  ident : ∀ e ∈ s.mods, GoodIdent e.2.ident
  table : ∀ e ∈ s.mods, GoodTable e.2.table
  src : ∀ e ∈ s.mods, From (A e.2.ident) e.2.table
  files : ∀ n f, s.files n = some f → GoodFile A f

theorem GoodTable.perm {t es : Table} (h : GoodTable t) (hp : es.Perm t) : GoodTable es :=
  ⟨⟨(hp.map (·.1)).nodup_iff.2 h.inv.names, fun e he => h.inv.lists e (hp.mem_iff.1 he)⟩,
   fun e he => h.names e (hp.mem_iff.1 he), fun e he => h.offs e (hp.mem_iff.1 he)⟩

theorem mfind_some {s : State} {p : Str} {c : Cache} (h : s.find p = some c) : (p, c) ∈ s.mods := by
  unfold State.find at h
  rw [Option.map_eq_some_iff] at h
  obtain ⟨e, h1, h2⟩ := h
  have h3 := List.mem_of_find?_eq_some h1
  have h4 := List.find?_some h1
  simp at h4
  obtain ⟨a, b⟩ := e
  simp at h4 h2
  subst h4; subst h2
  exact h3

theorem mfind_of_mem {s : State} (hn : (s.mods.map (·.1)).Nodup) {p : Str} {c : Cache}
    (h : (p, c) ∈ s.mods) : s.find p = some c := by
  obtain ⟨mods, files⟩ := s
  unfold State.find
  dsimp only at hn h ⊢
  clear files
  induction mods with
  | nil => simp at h
  | cons e t ih =>
    rw [List.map_cons, List.nodup_cons] at hn
    rw [List.find?_cons]
    rcases List.mem_cons.1 h with h | h
    · subst h; simp
    · have : e.1 ≠ p := by
        intro he
        exact hn.1 (List.mem_map.2 ⟨_, h, he.symm⟩)
      simp only [this, decide_false]
      exact ih hn.2 h

theorem mfind_none {s : State} {p : Str} (h : s.find p = none) : p ∉ s.mods.map (·.1) := by
  unfold State.find at h
  simp at h
  intro hm
  rw [List.mem_map] at hm
  obtain ⟨e, h1, h2⟩ := hm
  obtain ⟨a, b⟩ := e
  exact h a b h1 h2

/-- A table is determined by its lists: offsets come from any table with the same
lists. -/
theorem from_of_listOf {A : Str → Nat → Prop} {t t' : Table} (hn : (t.map (·.1)).Nodup)
    (hf : From A t') (h : ∀ sym, listOf t sym = listOf t' sym) : From A t := by
  intro e he o ho
  have h1 : listOf t e.1 = e.2.list := by
    unfold listOf lookupTable
    rw [find_of_mem hn (sym := e.1) (o := e.2) he]
    rfl
  rw [← h1, h] at ho
  unfold listOf lookupTable at ho
  cases hfi : t'.find e.1 with
  | none => rw [hfi] at ho; simp at ho
  | some o' =>
    rw [hfi] at ho
    exact hf _ (find_some hfi) o ho

theorem good_of_listOf {t t' : Table} (hi : TInv t) (hg : GoodTable t')
    (h : ∀ sym, listOf t sym = listOf t' sym) : GoodTable t := by
  have hnm : ∀ e ∈ t, GoodName e.1 := by
    intro e he
    have h1 : listOf t e.1 = e.2.list := by
      unfold listOf lookupTable
      rw [find_of_mem hi.names (sym := e.1) (o := e.2) he]
      rfl
    have h2 := (hi.lists e he).ne
    rw [← h1, h] at h2
    unfold listOf lookupTable at h2
    cases hfi : t'.find e.1 with
    | none => rw [hfi] at h2; simp at h2
    | some o' => exact hg.names (e.1, o') (find_some hfi)
  exact ⟨hi, hnm, from_of_listOf (A := fun _ o => o < 2 ^ 32) hi.names hg.offs h⟩

/-- Reading a written file: rejected, or the same lists. -/
theorem read_good {id : Ident} (hid : GoodIdent id) {debug : Bool} {es : Table} (hg : GoodTable es)
    (id' : Ident) (hasSyms : Bool) :
    readFile id' hasSyms (some (writeFile id debug es)) = .error .reject ∨
    (id' = id ∧ ¬ (debug = false ∧ hasSyms = true) ∧
      ∃ t, readFile id' hasSyms (some (writeFile id debug es)) = .ok (t, debug) ∧ GoodTable t ∧
        ∀ sym, listOf t sym = listOf es sym) := by
  rw [readFile_writeFile hid (fun e he => ⟨hg.names e he, (hg.inv.lists e he).ne⟩)]
  by_cases h : id' = id ∧ ¬ (debug = false ∧ hasSyms = true)
  · right
    refine ⟨h.1, h.2, ?_⟩
    rw [if_pos h]
    obtain ⟨t, h1, h2, h3⟩ := adds_entryOps hg.inv hg.offs
    rw [h1]
    exact ⟨t, rfl, good_of_listOf h2 hg h3, h3⟩
  · left
    rw [if_neg h]

theorem Inv.mono {A B : Ident → Str → Nat → Prop} (h : ∀ id s o, A id s o → B id s o) {s : State}
    (hi : Inv A s) : Inv B s := by
  refine ⟨hi.paths, hi.ident, hi.table, fun e he x hx o ho => h _ _ _ (hi.src e he x hx o ho), ?_⟩
  intro n f hf
  obtain ⟨id, d, es, h1, h2, h3, h4⟩ := hi.files n f hf
  exact ⟨id, d, es, h1, h2, fun x hx o ho => h _ _ _ (h3 x hx o ho), h4⟩

theorem writeCache_good {A : Ident → Str → Nat → Prop} {C : Conf} (hC : GoodConf C)
    {files : Str → Option Str} (hf : ∀ n f, files n = some f → GoodFile A f) (name : Str)
    {c : Cache} (hid : GoodIdent c.ident) (hg : GoodTable c.table)
    (hs : From (A c.ident) c.table) :
    ∀ n f, writeCache C files name c n = some f → GoodFile A f := by
  intro n f h
  unfold writeCache at h
  split at h
  · exact hf n f h
  · dsimp only at h
    split at h
    · refine ⟨c.ident, c.debug, C.order c.table, hid, hg.perm (hC _), ?_, (Option.some.inj h).symm⟩
      intro e he
      exact hs e ((hC _).mem_iff.1 he)
    · exact hf n f h

theorem load_spec {A : Ident → Str → Nat → Prop} {C : Conf} {s : State} (hi : Inv A s) {m : Mod}
    (hm : GoodIdent m.ident) : ∃ s', load C s m = .ok s' ∧ Inv A s' := by
  unfold load
  split
  · exact ⟨s, rfl, hi⟩
  · rename_i name hname
    split
    · exact ⟨s, rfl, hi⟩
    · split
      · exact ⟨s, rfl, hi⟩
      · rename_i hnf
        have hnew : ∀ (c : Cache), GoodIdent c.ident → GoodTable c.table →
            From (A c.ident) c.table → Inv A { s with mods := s.mods ++ [(m.path, c)] } := by
          intro c h1 h2 h3
          refine ⟨?_, ?_, ?_, ?_, hi.files⟩
          · dsimp only
            rw [List.map_append, List.nodup_append]
            refine ⟨hi.paths, by simp, ?_⟩
            intro a ha b hb h
            simp at hb
            subst hb; subst h
            exact mfind_none hnf ha
          all_goals
            intro e he
            rcases List.mem_append.1 he with h | h
          · exact hi.ident e h
          · simp at h; subst h; exact h1
          · exact hi.table e h
          · simp at h; subst h; exact h2
          · exact hi.src e h
          · simp at h; subst h; exact h3
        have hempty : GoodTable [] := ⟨TInv.nil, by simp, by simp⟩
        cases hf : s.files name with
        | none =>
          simp only [readFile]
          exact ⟨_, rfl, hnew _ hm hempty (by intro e he; simp at he)⟩
        | some f =>
          obtain ⟨id, d, es, h1, h2, h3, h4⟩ := hi.files name f hf
          subst h4
          rcases read_good (debug := d) h1 h2 m.ident m.hasSyms with h | ⟨h5, _, t, h, h6, h7⟩
          · rw [h]
            exact ⟨_, rfl, hnew _ hm hempty (by intro e he; simp at he)⟩
          · rw [h]
            refine ⟨_, rfl, hnew _ hm h6 ?_⟩
            rw [h5]
            exact from_of_listOf h6.inv.names h3 h7

theorem save_spec {A : Ident → Str → Nat → Prop} {C : Conf} (hC : GoodConf C) {s : State}
    (hi : Inv A s) (m : Mod) (r : Bool) : Inv A (save C s m r) := by
  unfold save
  split
  · exact hi
  · rename_i name _
    split
    · exact hi
    · rename_i c hc
      have hmem := mfind_some hc
      have hfl := writeCache_good hC hi.files name (hi.ident _ hmem) (hi.table _ hmem)
        (hi.src _ hmem)
      have hsub : ∀ e, e ∈ (if r = true then s.mods.filter (fun e => e.1 ≠ m.path) else s.mods) →
          e ∈ s.mods := by
        intro e he
        split at he
        · exact (List.mem_filter.1 he).1
        · exact he
      refine ⟨?_, fun e he => hi.ident e (hsub e he), fun e he => hi.table e (hsub e he),
        fun e he => hi.src e (hsub e he), hfl⟩
      dsimp only
      split
      · exact hi.paths.sublist (List.Sublist.map _ (List.filter_sublist ..))
      · exact hi.paths

theorem symbolAdd_names {t t' : Table} {sym : Str} {x : Nat} {b : Bool}
    (h : symbolAdd t sym x = .ok (t', b)) : ∀ e ∈ t', e.1 = sym ∨ e.1 ∈ t.map (·.1) := by
  unfold symbolAdd at h
  split at h
  · rename_i o _
    cases ha : o.add x with
    | error e => rw [ha] at h; cases h
    | ok r =>
      rw [ha] at h
      have := (Prod.mk.inj (Except.ok.inj h)).1
      intro e he
      right
      rw [← this] at he
      have : e.1 ∈ (t.set sym r.1).map (·.1) := List.mem_map.2 ⟨e, he, rfl⟩
      rw [set_names] at this
      exact this
  · have := (Prod.mk.inj (Except.ok.inj h)).1
    intro e he
    rw [← this] at he
    rcases List.mem_append.1 he with h | h
    · exact .inr (List.mem_map.2 ⟨e, h, rfl⟩)
    · simp at h; subst h; exact .inl rfl

theorem mem_upd {l l' : List Nat} {x y : Nat} (h : upd l x = some l') (hy : y ∈ l') :
    y = x ∨ y ∈ l := by
  unfold upd at h
  split at h
  · have := Option.some.inj h
    rw [← this] at hy
    exact .inl (by simpa using hy)
  · split at h
    · cases h
    · split at h
      · have := Option.some.inj h
        rw [← this] at hy
        exact .inr hy
      · have := Option.some.inj h
        rw [← this] at hy
        rcases List.mem_append.1 hy with h | h
        · exact .inr h
        · exact .inl (by simpa using h)

/-- One addition to a good table. -/
theorem symbolAdd_good {t : Table} (hg : GoodTable t) {sym : Str} (hn : GoodName sym) {x : Nat}
    (hx : x < 2 ^ 32) :
    symbolAdd t sym x = .error .abort ∨
    ∃ t' b, symbolAdd t sym x = .ok (t', b) ∧ GoodTable t' ∧
      (∀ (A : Str → Nat → Prop), From A t → A sym x → From A t') ∧
      (∀ s, s ≠ sym → listOf t' s = listOf t s) ∧ x ∈ listOf t' sym ∧ (b = false → t' = t) := by
  have hx64 : x + 1 < 2 ^ 64 := by
    have h64 : (2 : Nat) ^ 32 < 2 ^ 64 := by decide
    omega
  have hs := symbolAdd_spec (sym := sym) hg.inv hx64
  cases hu : upd (listOf t sym) x with
  | none => simp only [hu] at hs; exact .inl hs
  | some l =>
    simp only [hu] at hs
    obtain ⟨t', b, h1, h2, h3, h4⟩ := hs
    have hfrom : ∀ (A : Str → Nat → Prop), From A t → A sym x → From A t' := by
      intro A hA hAx e he o ho
      have hl : listOf t' e.1 = e.2.list := by
        unfold listOf lookupTable
        rw [find_of_mem h2.names (sym := e.1) (o := e.2) he]
        rfl
      rw [← hl, h3] at ho
      have hold : ∀ s, o ∈ listOf t s → A s o := by
        intro s ho
        unfold listOf lookupTable at ho
        cases hfi : t.find s with
        | none => rw [hfi] at ho; simp at ho
        | some o' =>
          rw [hfi] at ho
          exact hA _ (find_some hfi) o ho
      split at ho
      · rename_i hes
        rcases mem_upd hu ho with h | h
        · rw [hes, h]; exact hAx
        · rw [hes]; exact hold _ h
      · exact hold _ ho
    refine .inr ⟨t', b, h1, ⟨h2, ?_, hfrom (fun _ o => o < 2 ^ 32) hg.offs hx⟩, hfrom, ?_, ?_, h4⟩
    · intro e he
      rcases symbolAdd_names h1 e he with h | h
      · rw [h]; exact hn
      · rw [List.mem_map] at h
        obtain ⟨e', he', h⟩ := h
        rw [← h]; exact hg.names e' he'
    · intro s hs
      rw [h3, if_neg hs]
    · rw [h3, if_pos rfl]
      unfold upd at hu
      split at hu
      · have := Option.some.inj hu
        rw [← this]; simp
      · split at hu
        · cases hu
        · split at hu
          · have := Option.some.inj hu
            rw [← this]; assumption
          · have := Option.some.inj hu
            rw [← this]; simp

theorem mfind_map {s : State} {p : Str} {c' : Cache} (q : Str) (files : Str → Option Str) :
    (State.mk (s.mods.map fun e => if e.1 = p then (e.1, c') else e) files).find q =
      if q = p then (s.find q).map fun _ => c' else s.find q := by
  unfold State.find
  dsimp only
  rw [List.find?_map]
  have : ((fun e : Str × Cache => decide (e.1 = q)) ∘
      fun e => if e.1 = p then (e.1, c') else e) = fun e => decide (e.1 = q) := by
    funext e
    simp only [Function.comp]
    split <;> rfl
  rw [this]
  cases hf : s.mods.find? fun e => decide (e.1 = q) with
  | none => simp
  | some e =>
    have := List.find?_some hf
    simp at this
    by_cases hs : q = p
    · simp [hs, this]
    · simp [hs, this]

theorem add_step {A : Ident → Str → Nat → Prop} {s : State} (hi : Inv A s) {m : Mod} {sym : Str}
    {x : Nat} (hn : GoodName sym) (hx : x < 2 ^ 32)
    (hA : ∀ c, s.find m.path = some c → A c.ident sym x) :
    add s m sym x = .error .abort ∨ ∃ s', add s m sym x = .ok s' ∧ Inv A s' := by
  unfold add
  split
  · exact .inr ⟨s, rfl, hi⟩
  · split
    · exact .inr ⟨s, rfl, hi⟩
    · rename_i c hc
      have hmem := mfind_some hc
      rcases symbolAdd_good (hi.table _ hmem) hn hx with h | ⟨t', b, h1, h2, h3, _⟩
      · left
        simp only at h
        simp only [h, bind, Except.bind]
      · right
        simp only at h1
        simp only [h1, bind, Except.bind]
        refine ⟨_, rfl, ?_, ?_, ?_, ?_, hi.files⟩
        · dsimp only
          rw [List.map_map]
          have : ((fun e : Str × Cache => e.1) ∘ fun e => if e.1 = m.path then
              (e.1, { c with table := t', appended := c.appended || (b && c.fromFile) }) else e) =
              fun e => e.1 := by
            funext e
            simp only [Function.comp]
            split <;> rfl
          rw [this]
          exact hi.paths
        all_goals
          intro e he
          rw [List.mem_map] at he
          obtain ⟨e', he', h⟩ := he
          split at h
        · subst h; exact hi.ident (m.path, c) hmem
        · subst h; exact hi.ident _ he'
        · subst h; exact h2
        · subst h; exact hi.table _ he'
        · subst h; exact h3 _ (hi.src _ hmem) (hA c hc)
        · subst h; exact hi.src _ he'

theorem exit_spec {A : Ident → Str → Nat → Prop} {C : Conf} (hC : GoodConf C) {s : State}
    (hi : Inv A s) : Inv A (exit C s) := by
  refine ⟨by simp [exit], by simp [exit], by simp [exit], by simp [exit], ?_⟩
  unfold exit
  dsimp only
  have : ∀ (l : List (Str × Cache)) (files : Str → Option Str),
      (∀ e ∈ l, GoodIdent e.2.ident ∧ GoodTable e.2.table ∧ From (A e.2.ident) e.2.table) →
      (∀ n f, files n = some f → GoodFile A f) →
      ∀ n f, l.foldl (fun fs e => writeCache C fs e.2.modname e.2) files n = some f →
        GoodFile A f := by
    intro l
    induction l with
    | nil => intro files _ hf; exact hf
    | cons e l ih =>
      intro files hl hf
      rw [List.foldl_cons]
      have he := hl e (List.mem_cons_self ..)
      exact ih _ (fun e h => hl e (List.mem_cons_of_mem _ h))
        (writeCache_good hC hf _ he.1 he.2.1 he.2.2)
  exact this s.mods s.files (fun e he => ⟨hi.ident e he, hi.table e he, hi.src e he⟩) hi.files

theorem run_snoc (C : Conf) (s : State) (ops : List Op) (op : Op) :
    run C s (ops ++ [op]) = (run C s ops).bind fun s => step C s op := by
  unfold run
  rw [List.foldlM_append]
  cases List.foldlM (step C) s ops with
  | error e => rfl
  | ok s' =>
    show (List.foldlM (step C) s' [op]) = step C s' op
    rw [List.foldlM_cons]
    cases step C s' op <;> rfl

theorem Added.snoc {C : Conf} {ops : List Op} {op : Op} {id : Ident} {sym : Str} {o : Nat}
    (h : Added C ops id sym o) : Added C (ops ++ [op]) id sym o := by
  obtain ⟨pre, m, post, s, c, h1, h2⟩ := h
  exact ⟨pre, m, post ++ [op], s, c, by rw [h1]; simp, h2⟩

theorem run_spec {C : Conf} (hC : GoodConf C) (ops : List Op) (hg : ∀ op ∈ ops, GoodOp op) :
    run C State.init ops = .error .abort ∨
    ∃ s, run C State.init ops = .ok s ∧ Inv (Added C ops) s := by
  induction ops using snoc_ind with
  | h0 =>
    right
    refine ⟨State.init, rfl, ?_, ?_, ?_, ?_, ?_⟩ <;> simp [State.init]
  | h ops op ih =>
    rw [run_snoc]
    rcases ih (fun o ho => hg o (List.mem_append_left _ ho)) with h | ⟨s, hs, hi⟩
    · left; rw [h]; rfl
    · rw [hs]
      have hi' : Inv (Added C (ops ++ [op])) s := hi.mono (fun _ _ _ h => h.snoc)
      have hop := hg op (by simp)
      show step C s op = _ ∨ ∃ s', step C s op = _ ∧ _
      cases op with
      | load m =>
        obtain ⟨s', h1, h2⟩ := load_spec (C := C) hi' (m := m) hop
        exact .inr ⟨s', h1, h2⟩
      | save m => exact .inr ⟨_, rfl, save_spec hC hi' m false⟩
      | unload m => exact .inr ⟨_, rfl, save_spec hC hi' m true⟩
      | add m sym o =>
        refine add_step hi' hop.1 hop.2 ?_
        intro c hc
        exact ⟨ops, m, [], s, c, rfl, hs, hc, rfl⟩
      | exit => exact .inr ⟨_, rfl, exit_spec hC hi'⟩

/-- C33: in every run over any modules and processes, whatever a lookup returns was
added earlier, for the same symbol of a module with the same consistency fields. -/
theorem C33_sound {C : Conf} (hC : GoodConf C) {ops : List Op} (hg : ∀ op ∈ ops, GoodOp op)
    {s : State} (hr : run C State.init ops = .ok s) {m : Mod} {sym : Str} {l : List Nat}
    (hl : lookup s m sym = some l) :
    ∃ c, s.find m.path = some c ∧ ∀ o ∈ l, Added C ops c.ident sym o := by
  rcases run_spec hC ops hg with h | ⟨s', h, hi⟩
  · rw [hr] at h; cases h
  · rw [hr] at h
    cases h
    unfold lookup at hl
    split at hl
    · cases hl
    · cases hf : s.find m.path with
      | none => rw [hf] at hl; cases hl
      | some c =>
        rw [hf] at hl
        refine ⟨c, rfl, ?_⟩
        intro o ho
        simp only [Option.bind_some, lookupTable] at hl
        rw [Option.map_eq_some_iff] at hl
        obtain ⟨ol, h1, h2⟩ := hl
        exact hi.src _ (mfind_some hf) _ (find_some h1) o (by rw [h2]; exact ho)

/-- C33: no run crashes: cache files written by the symbol cache itself are always read
without a wild access, and the only early end is the abort of C34. -/
theorem C33_no_crash {C : Conf} (hC : GoodConf C) {ops : List Op} (hg : ∀ op ∈ ops, GoodOp op) :
    run C State.init ops = .error .abort ∨ ∃ s, run C State.init ops = .ok s := by
  rcases run_spec hC ops hg with h | ⟨s, h, _⟩
  · exact .inl h
  · exact .inr ⟨s, h⟩

/-- C34: an addition changes the lookups of no other symbol and no other module, and
the offset added is found afterwards. -/
theorem C34_frame {C : Conf} (hC : GoodConf C) {ops : List Op} (hg : ∀ op ∈ ops, GoodOp op)
    {s s' : State} (hr : run C State.init ops = .ok s) {m : Mod} {sym : Str} {x : Nat}
    (hn : GoodName sym) (hx : x < 2 ^ 32) (ha : add s m sym x = .ok s') :
    (∀ m' sym', m'.path ≠ m.path ∨ sym' ≠ sym → lookup s' m' sym' = lookup s m' sym') ∧
    (∀ name c, m.name = some name → s.find m.path = some c →
      ∃ l, lookup s' m sym = some l ∧ x ∈ l) := by
  rcases run_spec hC ops hg with h | ⟨s0, h, hi⟩
  · rw [hr] at h; cases h
  rw [hr] at h
  cases h
  unfold add at ha
  cases hname : m.name with
  | none =>
    rw [hname] at ha
    cases ha
    exact ⟨fun _ _ _ => rfl, fun _ _ h => by cases h⟩
  | some name =>
    rw [hname] at ha
    simp only at ha
    cases hf : s.find m.path with
    | none =>
      rw [hf] at ha
      cases ha
      exact ⟨fun _ _ _ => rfl, fun _ _ _ h => by cases h⟩
    | some c =>
      rw [hf] at ha
      simp only at ha
      have hmem := mfind_some hf
      rcases symbolAdd_good (hi.table _ hmem) hn hx with h | ⟨t', b, h1, h2, _, h4, h5, _⟩
      · simp only at h
        simp only [h, bind, Except.bind] at ha
        cases ha
      · simp only at h1
        simp only [h1, bind, Except.bind] at ha
        have ha := (Except.ok.inj ha).symm
        have hfs : ∀ q, s'.find q = if q = m.path then (s.find q).map fun _ =>
            { c with table := t', appended := c.appended || (b && c.fromFile) } else s.find q := by
          intro q
          rw [ha]
          exact mfind_map q _
        constructor
        · intro m' sym' hne
          unfold lookup
          rw [hfs]
          split
          · rfl
          · by_cases hp : m'.path = m.path
            · rw [if_pos hp, hp, hf]
              simp only [Option.map_some, Option.bind_some]
              have h6 := h4 sym' (hne.resolve_left (fun h => h hp))
              have h7 := listOf_ne h2.inv (sym := sym')
              have h8 := listOf_ne (hi.table _ hmem).inv (sym := sym')
              rw [h7, h8, h6]
            · rw [if_neg hp]
        · intro _ _ _ _
          unfold lookup
          rw [hfs, hname, if_pos rfl, hf]
          simp only [Option.map_some, Option.bind_some]
          have h7 := listOf_ne h2.inv (sym := sym)
          rw [h7, if_neg (fun h => by rw [h] at h5; simp at h5)]
          exact ⟨_, rfl, h5⟩

end Verif.SymCache
