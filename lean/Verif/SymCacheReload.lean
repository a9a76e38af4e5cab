import Verif.SymCacheRun

/-
Nothing is lost when a module is unloaded and loaded again or the process ends
(C33), provided no two modules share a preferred name.
-/

namespace Verif.SymCache

/-! ## Specification -/

/-- The modules of a run: the preferred name of a path, and whether the module with
these consistency fields has symbols; no name belongs to two paths. -/
structure World where
  nameOf : Str → Option Str
  symsOf : Str → Ident → Bool
  inj : ∀ p q n, nameOf p = some n → nameOf q = some n → p = q

/-- The module is one of the world. -/
def World.has (W : World) (m : Mod) : Prop :=
  m.name = W.nameOf m.path ∧ m.hasSyms = W.symsOf m.path m.ident

/-- The operation is about a module of the world. -/
def World.hasOp (W : World) : Op → Prop
  | .load m => W.has m
  | .save m => m.name = W.nameOf m.path
  | .unload m => m.name = W.nameOf m.path
  | .add m _ _ => m.name = W.nameOf m.path
  | .exit => True

/-! ## Invariant -/

/-- What holds for a loaded module and the file of its name. -/
structure Entry (W : World) (files : Str → Option Str) (p : Str) (c : Cache) : Prop where
  name : W.nameOf p = some c.modname
  debug : c.debug = false → W.symsOf p c.ident = false
  appended : c.appended = true → c.table ≠ []
  fromFile : c.fromFile = true → ∃ es, GoodTable es ∧
    files c.modname = some (writeFile c.ident c.debug es) ∧
    (c.appended = false → ∀ sym, listOf es sym = listOf c.table sym)
  fresh : c.fromFile = false → c.table = [] →
    readFile c.ident (W.symsOf p c.ident) (files c.modname) = .error .reject

def J (W : World) (s : State) : Prop := ∀ e ∈ s.mods, Entry W s.files e.1 e.2

theorem writeCache_at (C : Conf) (files : Str → Option Str) (name : Str) (c : Cache) (n : Str) :
    writeCache C files name c n =
      if n = name ∧ ¬ ((c.fromFile = true ∧ ¬ c.appended = true) ∨ c.table = []) then
        some (writeFile c.ident c.debug (C.order c.table))
      else files n := by
  unfold writeCache
  by_cases h : (c.fromFile = true ∧ ¬ c.appended = true) ∨ c.table = []
  · rw [if_pos h, if_neg (fun hh => hh.2 h)]
  · rw [if_neg h]
    by_cases hn : n = name
    · rw [if_pos hn, if_pos ⟨hn, h⟩]
    · rw [if_neg hn, if_neg (fun hh => hn hh.1)]

/-- A write for the module itself keeps its entry. -/
theorem Entry.write {W : World} {C : Conf} (hC : GoodConf C) {files : Str → Option Str} {p : Str}
    {c : Cache} (h : Entry W files p c) (hg : GoodTable c.table) :
    Entry W (writeCache C files c.modname c) p c := by
  refine ⟨h.name, h.debug, h.appended, ?_, ?_⟩
  · intro hf
    rw [writeCache_at]
    by_cases hw : (c.fromFile = true ∧ ¬ c.appended = true) ∨ c.table = []
    · rw [if_neg (fun hh => hh.2 hw)]
      exact h.fromFile hf
    · rw [if_pos ⟨rfl, hw⟩]
      have hg' := hg.perm (hC c.table)
      refine ⟨C.order c.table, hg', rfl, ?_⟩
      intro ha
      exact absurd (.inl ⟨hf, by rw [ha]; simp⟩) hw
  · intro hf ht
    rw [writeCache_at, if_neg (fun hh => hh.2 (.inr ht))]
    exact h.fresh hf ht

/-- A write under another name keeps it, too. -/
theorem Entry.other {W : World} {files files' : Str → Option Str} {p : Str}
    {c : Cache} (h : Entry W files p c) (hs : files' c.modname = files c.modname) :
    Entry W files' p c := by
  refine ⟨h.name, h.debug, h.appended, ?_, ?_⟩
  · rw [hs]; exact h.fromFile
  · rw [hs]; exact h.fresh

theorem J.save {W : World} {C : Conf} (hC : GoodConf C) {A : Ident → Str → Nat → Prop} {s : State}
    (hi : Inv A s) (hj : J W s) {m : Mod} (hm : m.name = W.nameOf m.path) (r : Bool) :
    J W (save C s m r) := by
  unfold SymCache.save
  cases hn : m.name with
  | none => exact hj
  | some name =>
    simp only
    cases hf : s.find m.path with
    | none => exact hj
    | some c =>
      simp only
      have hmem := mfind_some hf
      have hce := hj _ hmem
      have hname : c.modname = name := by
        have := hce.name
        simp only at this
        rw [← hm, hn] at this
        exact (Option.some.inj this).symm
      intro e he
      have he' : e ∈ s.mods := by
        dsimp only at he
        split at he
        · exact (List.mem_filter.1 he).1
        · exact he
      dsimp only
      by_cases hp : e.1 = m.path
      · have hec : e = (m.path, c) := by
          have h1 := mfind_of_mem hi.paths (p := e.1) (c := e.2) he'
          rw [hp, hf] at h1
          obtain ⟨a, b⟩ := e
          simp at hp h1
          rw [hp, h1]
        rw [hec, ← hname]
        exact hce.write hC (hi.table _ hmem)
      · refine (hj e he').other ?_
        rw [writeCache_at, if_neg]
        rintro ⟨h1, _⟩
        apply hp
        refine W.inj _ _ name ?_ (by rw [← hm, hn])
        rw [← h1]
        exact (hj e he').name

theorem J.load {W : World} {C : Conf} {A : Ident → Str → Nat → Prop} {s s' : State}
    (hi : Inv A s) (hj : J W s) {m : Mod} (hm : W.has m)
    (h : load C s m = .ok s') : J W s' := by
  unfold SymCache.load at h
  cases hn : m.name with
  | none => rw [hn] at h; cases h; exact hj
  | some name =>
    rw [hn] at h
    simp only at h
    split at h
    · cases h; exact hj
    · split at h
      · cases h; exact hj
      · have hnew : ∀ c, Entry W s.files m.path c →
            J W { s with mods := s.mods ++ [(m.path, c)] } := by
          intro c hc e he
          rcases List.mem_append.1 he with h | h
          · exact hj e h
          · simp at h; subst h; exact hc
        have hname : W.nameOf m.path = some name := by rw [← hm.1, hn]
        have hrej : readFile m.ident m.hasSyms (s.files name) = .error .reject →
            J W { s with mods := s.mods ++
              [(m.path, ⟨name, false, false, [], m.ident, m.hasSyms⟩)] } := by
          intro hr
          apply hnew
          refine ⟨hname, ?_, by simp, by simp, ?_⟩
          · intro hd
            rw [← hm.2]; exact hd
          · intro _ _
            rw [← hm.2]; exact hr
        cases hf : s.files name with
        | none =>
          rw [hf] at h hrej
          simp only [readFile] at h
          cases h
          exact hrej rfl
        | some f =>
          rw [hf] at h hrej
          obtain ⟨id, d, es, h1, h2, h3, h4⟩ := hi.files name f hf
          subst h4
          rcases read_good (debug := d) h1 h2 m.ident m.hasSyms with hr | ⟨h5, h5', t, hr, h6, h7⟩
          · rw [hr] at h
            cases h
            exact hrej hr
          · rw [hr] at h
            cases h
            apply hnew
            refine ⟨hname, ?_, by simp, ?_, by simp⟩
            · intro hd
              rw [← hm.2]
              simp only at hd
              cases hs : m.hasSyms with
              | false => rfl
              | true => exact absurd ⟨hd, hs⟩ h5'
            · intro _
              refine ⟨es, h2, ?_, fun _ sym => (h7 sym).symm⟩
              dsimp only
              rw [h5]; exact hf

theorem J.add {W : World} {A : Ident → Str → Nat → Prop} {s s' : State}
    (hi : Inv A s) (hj : J W s) {m : Mod} {sym : Str} {x : Nat} (hn : GoodName sym)
    (hx : x < 2 ^ 32) (h : add s m sym x = .ok s') : J W s' := by
  unfold SymCache.add at h
  split at h
  · cases h; exact hj
  · split at h
    · cases h; exact hj
    · rename_i c hc
      have hmem := mfind_some hc
      rcases symbolAdd_good (hi.table _ hmem) hn hx with hb | ⟨t', b, h1, h2, _, _, h5, h6⟩
      · simp only at hb
        simp only [hb, bind, Except.bind] at h
        cases h
      · simp only at h1 h6
        simp only [h1, bind, Except.bind] at h
        have h := (Except.ok.inj h).symm
        have hne : t' ≠ [] := by
          intro ht
          rw [ht] at h5
          simp [listOf, lookupTable, Table.find] at h5
        have hce := hj _ hmem
        intro e he
        rw [h] at he ⊢
        dsimp only at he ⊢
        rw [List.mem_map] at he
        obtain ⟨e', he', heq⟩ := he
        split at heq
        · rename_i hp
          subst heq
          dsimp only
          rw [hp]
          refine ⟨hce.name, hce.debug, fun _ => hne, ?_, fun _ ht => absurd ht hne⟩
          intro hf
          obtain ⟨es, k1, k2, k3⟩ := hce.fromFile hf
          refine ⟨es, k1, k2, ?_⟩
          intro ha
          dsimp only at ha hf
          rw [hf] at ha
          simp at ha
          have := h6 ha.2
          dsimp only
          rw [this]
          exact k3 ha.1
        · subst heq
          exact hj _ he'

theorem run_J {W : World} {C : Conf} (hC : GoodConf C) (ops : List Op)
    (hg : ∀ op ∈ ops, GoodOp op) (hw : ∀ op ∈ ops, W.hasOp op) {s : State}
    (hr : run C State.init ops = .ok s) : Inv (Added C ops) s ∧ J W s := by
  refine ⟨?_, ?_⟩
  · rcases run_spec hC ops hg with h | ⟨s', h, hi⟩
    · rw [hr] at h; cases h
    · rw [hr] at h; cases h; exact hi
  · induction ops using snoc_ind generalizing s with
    | h0 =>
      cases hr
      intro e he
      simp [State.init] at he
    | h ops op ih =>
      have hg' : ∀ o ∈ ops, GoodOp o := fun o ho => hg o (List.mem_append_left _ ho)
      rw [run_snoc] at hr
      rcases run_spec hC ops hg' with h | ⟨s1, h, hi⟩
      · rw [h] at hr; cases hr
      · have hj := ih hg' (fun o ho => hw o (List.mem_append_left _ ho)) h
        rw [h] at hr
        have hr : step C s1 op = .ok s := hr
        have hwo := hw op (by simp)
        have hgo := hg op (by simp)
        cases op with
        | load m => exact hj.load hi hwo hr
        | save m => cases hr; exact hj.save hC hi hwo false
        | unload m => cases hr; exact hj.save hC hi hwo true
        | add m sym o => exact hj.add hi hgo.1 hgo.2 hr
        | exit =>
          cases hr
          intro e he
          simp [exit] at he

/-! ## Loading again -/

/-- After the write for a module, its file gives its table back. -/
theorem Entry.saved {W : World} {C : Conf} (hC : GoodConf C) {files : Str → Option Str} {p : Str}
    {c : Cache} (h : Entry W files p c) (hid : GoodIdent c.ident) (hg : GoodTable c.table)
    {f : Option Str} (hf : f = writeCache C files c.modname c c.modname) :
    (∃ t d, readFile c.ident (W.symsOf p c.ident) f = .ok (t, d) ∧
      ∀ sym, lookupTable t sym = lookupTable c.table sym) ∨
    (c.table = [] ∧ readFile c.ident (W.symsOf p c.ident) f = .error .reject) := by
  have hrt : ∀ es, GoodTable es → (∀ sym, listOf es sym = listOf c.table sym) →
      f = some (writeFile c.ident c.debug es) →
      ∃ t d, readFile c.ident (W.symsOf p c.ident) f = .ok (t, d) ∧
        ∀ sym, lookupTable t sym = lookupTable c.table sym := by
    intro es h1 h2 h3
    obtain ⟨t, k1, k2⟩ := C33_roundtrip_partial hid h1 (List.Perm.refl _) c.debug
      (W.symsOf p c.ident) (by
        intro hs
        cases hd : c.debug with
        | true => rfl
        | false => rw [h.debug hd] at hs; cases hs)
    refine ⟨t, c.debug, by rw [h3]; exact k1, fun sym => ?_⟩
    rw [k2, listOf_ne h1.inv, h2, ← listOf_ne hg.inv]
  rw [writeCache_at] at hf
  by_cases hw : (c.fromFile = true ∧ ¬ c.appended = true) ∨ c.table = []
  · rw [if_neg (fun hh => hh.2 hw)] at hf
    by_cases hff : c.fromFile = true
    · left
      obtain ⟨es, k1, k2, k3⟩ := h.fromFile hff
      have ha : c.appended = false := by
        cases ha : c.appended with
        | false => rfl
        | true =>
          rcases hw with hw | hw
          · exact absurd ha hw.2
          · exact absurd hw (h.appended ha)
      exact hrt es k1 (k3 ha) (by rw [hf, k2])
    · right
      have ht : c.table = [] := hw.resolve_left (fun hh => hff hh.1)
      refine ⟨ht, ?_⟩
      rw [hf]
      exact h.fresh (by simpa using hff) ht
  · left
    rw [if_pos ⟨rfl, hw⟩] at hf
    refine hrt (C.order c.table) (hg.perm (hC _)) ?_ hf
    intro sym
    have hp := hC c.table
    have hfi : (C.order c.table).find sym = c.table.find sym := by
      cases hf : (C.order c.table).find sym with
      | some o => exact (find_of_mem hg.inv.names (hp.mem_iff.1 (find_some hf))).symm
      | none =>
        cases hf' : c.table.find sym with
        | none => rfl
        | some o =>
          rw [find_of_mem (hg.perm hp).inv.names (hp.mem_iff.2 (find_some hf'))] at hf
          cases hf
    unfold listOf lookupTable
    rw [hfi]

/-- Loading a module that is not loaded, from a file with its table. -/
theorem load_again {C : Conf} {s : State} {m : Mod} {name : Str} {tab : Table}
    (hname : m.name = some name) (hsize : ¬ m.size < C.threshold) (hnf : s.find m.path = none)
    (hr : (∃ t d, readFile m.ident m.hasSyms (s.files name) = .ok (t, d) ∧
        ∀ sym, lookupTable t sym = lookupTable tab sym) ∨
      (tab = [] ∧ readFile m.ident m.hasSyms (s.files name) = .error .reject)) :
    ∃ s', load C s m = .ok s' ∧ ∀ sym, lookup s' m sym = lookupTable tab sym := by
  have hfind : ∀ c, (State.mk (s.mods ++ [(m.path, c)]) s.files).find m.path = some c := by
    intro c
    unfold State.find at hnf ⊢
    rw [Option.map_eq_none_iff] at hnf
    rw [List.find?_append, hnf]
    simp
  unfold load
  rw [hname]
  simp only [if_neg hsize, hnf]
  rcases hr with ⟨t, d, h1, h2⟩ | ⟨h1, h2⟩
  · rw [h1]
    refine ⟨_, rfl, fun sym => ?_⟩
    unfold lookup
    rw [hname]
    simp only [hfind, Option.bind_some]
    exact h2 sym
  · rw [h2]
    refine ⟨_, rfl, fun sym => ?_⟩
    unfold lookup
    rw [hname, h1]
    simp only [hfind, Option.bind_some]

/-- C33: in every run in which no two modules share a preferred name, unloading a
module and loading it again changes no lookup. -/
theorem C33_reload {W : World} {C : Conf} (hC : GoodConf C) {ops : List Op}
    (hg : ∀ op ∈ ops, GoodOp op) (hw : ∀ op ∈ ops, W.hasOp op) {s : State}
    (hr : run C State.init ops = .ok s) {m : Mod} (hm : W.has m)
    (hsize : ¬ m.size < C.threshold) {c : Cache} (hc : s.find m.path = some c)
    (hid : m.ident = c.ident) :
    ∃ s1 s2, step C s (.unload m) = .ok s1 ∧ s1.find m.path = none ∧
      step C s1 (.load m) = .ok s2 ∧ ∀ sym, lookup s2 m sym = lookup s m sym := by
  obtain ⟨hi, hj⟩ := run_J hC ops hg hw hr
  have hmem := mfind_some hc
  have he := hj _ hmem
  have hname : m.name = some c.modname := by rw [hm.1]; exact he.name
  have hs1 : save C s m true = ⟨s.mods.filter (fun e => e.1 ≠ m.path),
      writeCache C s.files c.modname c⟩ := by
    unfold save
    rw [hname]
    simp only [hc, if_true]
  have hnf : (save C s m true).find m.path = none := by
    rw [hs1]
    unfold State.find
    simp
  have hsv := he.saved hC (hi.ident _ hmem) (hi.table _ hmem) (f := _) rfl
  obtain ⟨s2, h1, h2⟩ := load_again (C := C) (s := save C s m true) (tab := c.table)
    hname hsize hnf (by
      rw [hs1]
      dsimp only
      rw [hid, hm.2, hid]
      exact hsv)
  refine ⟨save C s m true, s2, rfl, hnf, h1, fun sym => ?_⟩
  rw [h2]
  unfold lookup
  rw [hname, hc]
  rfl

theorem exit_at {W : World} {C : Conf} : ∀ (l : List (Str × Cache)) (files : Str → Option Str),
    (l.map (·.1)).Nodup → (∀ e ∈ l, W.nameOf e.1 = some e.2.modname) → ∀ e ∈ l,
    l.foldl (fun fs e => writeCache C fs e.2.modname e.2) files e.2.modname =
      writeCache C files e.2.modname e.2 e.2.modname
  | [], _, _, _, e, he => by simp at he
  | x :: l, files, hn, hw, e, he => by
    rw [List.map_cons, List.nodup_cons] at hn
    rw [List.foldl_cons]
    have hkeep : ∀ (l : List (Str × Cache)) (files : Str → Option Str) (n : Str),
        (∀ y ∈ l, y.2.modname ≠ n) →
        l.foldl (fun fs e => writeCache C fs e.2.modname e.2) files n = files n := by
      intro l
      induction l with
      | nil => intro _ _ _; rfl
      | cons y l ih =>
        intro files n hy
        rw [List.foldl_cons, ih _ _ (fun z hz => hy z (List.mem_cons_of_mem _ hz)), writeCache_at,
          if_neg]
        rintro ⟨h, _⟩
        exact hy y (List.mem_cons_self ..) h.symm
    rcases List.mem_cons.1 he with h | h
    · subst h
      apply hkeep
      intro y hy hyn
      apply hn.1
      have := W.inj y.1 e.1 e.2.modname (by rw [← hyn]; exact hw y (List.mem_cons_of_mem _ hy))
        (hw e (List.mem_cons_self ..))
      rw [← this]
      exact List.mem_map.2 ⟨y, hy, rfl⟩
    · rw [exit_at l _ hn.2 (fun y hy => hw y (List.mem_cons_of_mem _ hy)) e h, writeCache_at]
      have : writeCache C files x.2.modname x.2 e.2.modname = files e.2.modname := by
        rw [writeCache_at, if_neg]
        rintro ⟨hne, _⟩
        apply hn.1
        have := W.inj e.1 x.1 e.2.modname (hw e he)
          (by rw [hne]; exact hw x (List.mem_cons_self ..))
        rw [← this]
        exact List.mem_map.2 ⟨e, h, rfl⟩
      rw [this, ← writeCache_at]

/-- C33: the same holds across the end of the process. -/
theorem C33_restart {W : World} {C : Conf} (hC : GoodConf C) {ops : List Op}
    (hg : ∀ op ∈ ops, GoodOp op) (hw : ∀ op ∈ ops, W.hasOp op) {s : State}
    (hr : run C State.init ops = .ok s) {m : Mod} (hm : W.has m)
    (hsize : ¬ m.size < C.threshold) {c : Cache} (hc : s.find m.path = some c)
    (hid : m.ident = c.ident) :
    ∃ s1 s2, step C s .exit = .ok s1 ∧ s1.mods = [] ∧
      step C s1 (.load m) = .ok s2 ∧ ∀ sym, lookup s2 m sym = lookup s m sym := by
  obtain ⟨hi, hj⟩ := run_J hC ops hg hw hr
  have hmem := mfind_some hc
  have he := hj _ hmem
  have hname : m.name = some c.modname := by rw [hm.1]; exact he.name
  have hat := exit_at (W := W) (C := C) s.mods s.files hi.paths (fun e h => (hj e h).name) _ hmem
  have hsv := he.saved hC (hi.ident _ hmem) (hi.table _ hmem) (f := _) rfl
  obtain ⟨s2, h1, h2⟩ := load_again (C := C) (s := exit C s) (tab := c.table)
    hname hsize (by simp [exit, State.find]) (by
      unfold exit
      dsimp only at hat ⊢
      rw [hat, hid, hm.2, hid]
      exact hsv)
  refine ⟨exit C s, s2, rfl, rfl, h1, fun sym => ?_⟩
  rw [h2]
  unfold lookup
  rw [hname, hc]
  rfl

/-! ## Concrete runs -/

def conf : Conf := ⟨0, List.reverse⟩

theorem conf_good : GoodConf conf := fun t => List.reverse_perm t

/-- A module `/a` named `a`. -/
def modA : Mod := ⟨[47, 97], some [97], 4096, sampleId, true⟩

/-- A module `/b` with the same preferred name and other contents. -/
def modB : Mod := ⟨[47, 98], some [97], 4096, { sampleId with timestamp := 5 }, true⟩

def sampleRun : List Op :=
  [.load modA, .add modA [109] 0, .add modA [102] 16, .add modA [102] 32, .save modA,
   .add modA [109] 48]

def world : World where
  nameOf p := if p = [47, 97] then some [97] else none
  symsOf _ _ := true
  inj p q n h1 h2 := by
    split at h1
    · split at h2
      · simp_all
      · cases h2
    · cases h1

example : (∀ op ∈ sampleRun, GoodOp op) ∧ (∀ op ∈ sampleRun, world.hasOp op) ∧ world.has modA ∧
    ∃ s c, run conf State.init sampleRun = .ok s ∧ s.find modA.path = some c ∧
      modA.ident = c.ident ∧ lookup s modA [102] = some [16, 32] ∧
      lookup s modA [109] = some [48] := by
  refine ⟨?_, ?_, ⟨rfl, rfl⟩, _, _, rfl, rfl, rfl, by decide +kernel, by decide +kernel⟩
  · intro op hop
    simp only [sampleRun, List.mem_cons, List.not_mem_nil, or_false] at hop
    rcases hop with h | h | h | h | h | h <;> subst h
    · exact ⟨by decide, by decide, by decide, by decide⟩
    · exact ⟨⟨by simp, by decide, by decide⟩, by decide⟩
    · exact ⟨⟨by simp, by decide, by decide⟩, by decide⟩
    · exact ⟨⟨by simp, by decide, by decide⟩, by decide⟩
    · trivial
    · exact ⟨⟨by simp, by decide, by decide⟩, by decide⟩
  · intro op hop
    simp only [sampleRun, List.mem_cons, List.not_mem_nil, or_false] at hop
    rcases hop with h | h | h | h | h | h <;> subst h
    · exact ⟨rfl, rfl⟩
    all_goals exact rfl

/-- What a lookup returns after a run. -/
def after (ops : List Op) (m : Mod) (sym : Str) : Option (List Nat) :=
  match run conf State.init ops with
  | .ok s => lookup s m sym
  | .error _ => none

/-- C33: with two modules of one name, unloading and loading again loses the symbols of
the module that was written first. -/
theorem C33_same_name :
    after [.load modA, .load modB, .add modA [102] 16, .add modB [103] 32] modA [102] =
      some [16] ∧
    after [.load modA, .load modB, .add modA [102] 16, .add modB [103] 32,
      .unload modA, .unload modB, .load modA] modA [102] = none := by
  refine ⟨?_, ?_⟩ <;> decide +kernel

end Verif.SymCache
