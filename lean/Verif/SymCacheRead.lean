import Verif.SymCacheText

/-
Reading back a file written by the symbol cache (C33).
-/

namespace Verif.SymCache

/-- Consistency fields as they are in a real module: 64-bit size, 32-bit time stamp,
sixteen bytes of MD5. -/
structure GoodIdent (id : Ident) : Prop where
  size : id.fileSize < 2 ^ 64
  time : id.timestamp < 2 ^ 32
  len : id.md5.length = 16
  bytes : ∀ x ∈ id.md5, x < 256

/-! ## The MD5 bytes -/

theorem md5Text_cons (x : Nat) (m : List Nat) :
    md5Text (x :: m) = 44 :: (padTo 48 2 (fmt 16 x) ++ md5Text m) := by
  simp [md5Text]

theorem mem_pad2 {x c : Nat} (h : c ∈ padTo 48 2 (fmt 16 x)) : c ≠ 44 ∧ c ≠ 10 ∧ c ≠ 0 := by
  have := mem_padTo (b := 16) (by omega) h
  omega

theorem readMd5_spec : ∀ (m : List Nat) (R : Str), m ≠ [] → (∀ x ∈ m, x < 256) →
    ∃ pre, readMd5 m.length (md5Text m ++ 10 :: R) = .ok (m, pre ++ 10 :: R) ∧
      ∀ x ∈ pre, x ≠ 10 ∧ x ≠ 0
  | [], R, h, _ => absurd rfl h
  | [x], R, _, hb => by
    have hx : x < 256 := hb x (by simp)
    refine ⟨44 :: padTo 48 2 (fmt 16 x), ?_, ?_⟩
    · have h1 := scan16 (n := x) (w := 32) (Nat.lt_trans hx (by decide)) (by omega) (c := 10)
        (by decide) (by omega) R 2
      rw [md5Text_cons]
      simp only [md5Text, List.map_nil, List.flatten_nil, List.append_nil, List.cons_append,
        List.length_cons, List.length_nil]
      unfold readMd5
      simp only [scanLit, bind, Except.bind, orReject, if_true, h1]
      rw [if_neg (show ¬ x > 255 by omega)]
    · intro y hy
      rcases List.mem_cons.1 hy with h | h
      · omega
      · exact (mem_pad2 h).2
  | x :: y :: m, R, _, hb => by
    have hx : x < 256 := hb x (by simp)
    obtain ⟨pre, h2, h3⟩ := readMd5_spec (y :: m) R (by simp)
      (fun z hz => hb z (List.mem_cons_of_mem _ hz))
    refine ⟨pre, ?_, h3⟩
    have h1 := scan16 (n := x) (w := 32) (Nat.lt_trans hx (by decide)) (by omega) (c := 44)
      (by decide) (by omega) (padTo 48 2 (fmt 16 y) ++ md5Text m ++ 10 :: R) 2
    have h4 : strchr 44 (padTo 48 2 (fmt 16 x) ++ 44 ::
        (padTo 48 2 (fmt 16 y) ++ md5Text m ++ 10 :: R)) =
        .ok (some (44 :: (padTo 48 2 (fmt 16 y) ++ md5Text m ++ 10 :: R))) :=
      strchr_spec (fun z hz => ⟨(mem_pad2 hz).1, (mem_pad2 hz).2.2⟩) _
    rw [md5Text_cons y m] at h2
    rw [md5Text_cons, md5Text_cons, List.length_cons]
    simp only [List.cons_append, List.append_assoc] at h1 h2 h4 ⊢
    rw [readMd5]
    simp only [scanLit, bind, Except.bind, orReject, if_true, h1, List.tail_cons, h4, h2]
    rw [if_neg (show ¬ x > 255 by omega), if_neg (by simp)]

/-! ## The consistency line -/

/-- The reader on the consistency line of a module `id`, checked against `id'`. -/
theorem readIdent_spec {id : Ident} (hid : GoodIdent id) (id' : Ident) (size : Nat) (R : Str) :
    ∃ pre, (∀ x ∈ pre, x ≠ 10 ∧ x ≠ 0) ∧
    readIdent id' size (padTo 32 10 (fmt 10 (size % 2 ^ 32)) ++ ([44] ++ fmt 10 id.fileSize ++
        [44] ++ fmt 10 id.timestamp ++ md5Text id.md5 ++ 10 :: R)) =
      if id' = id then .ok (pre ++ 10 :: R) else .error .reject := by
  obtain ⟨pre, hm, hpre⟩ := readMd5_spec id.md5 R
    (by intro h; have := hid.len; rw [h] at this; simp at this) hid.bytes
  rw [hid.len] at hm
  refine ⟨pre, hpre, ?_⟩
  obtain ⟨x, m, hxm⟩ : ∃ x m, id.md5 = x :: m := by
    cases h : id.md5 with
    | nil => have := hid.len; rw [h] at this; simp at this
    | cons x m => exact ⟨x, m, rfl⟩
  generalize hT : md5Text id.md5 ++ 10 :: R = T at hm
  have hT' : ∃ T', T = 44 :: T' := ⟨_, by rw [← hT, hxm, md5Text_cons]; rfl⟩
  obtain ⟨T', hT'⟩ := hT'
  have hline : padTo 32 10 (fmt 10 (size % 2 ^ 32)) ++ ([44] ++ fmt 10 id.fileSize ++
        [44] ++ fmt 10 id.timestamp ++ md5Text id.md5 ++ 10 :: R) =
      padTo 32 10 (fmt 10 (size % 2 ^ 32)) ++ 44 :: (fmt 10 id.fileSize ++
        44 :: (fmt 10 id.timestamp ++ 44 :: T')) := by
    rw [← hT', ← hT]
    simp
  rw [hline]
  have h1 : ∀ r, scanNum 10 32 (padTo 32 10 (fmt 10 (size % 2 ^ 32)) ++ 44 :: r) =
      .ok (some (size % 2 ^ 32, 44 :: r)) := by
    intro r
    unfold padTo
    rw [List.append_assoc]
    exact scan10 (Nat.mod_lt _ (by decide)) (by omega) (by decide) (by omega) r _
  have h2 : ∀ r, scanNum 10 64 (fmt 10 id.fileSize ++ 44 :: r) =
      .ok (some (id.fileSize, 44 :: r)) := by
    intro r
    have := scan10 hid.size (by omega) (c := 44) (by decide) (by omega) r 0
    simpa using this
  have h3 : ∀ r, scanNum 10 32 (fmt 10 id.timestamp ++ 44 :: r) =
      .ok (some (id.timestamp, 44 :: r)) := by
    intro r
    have := scan10 hid.time (by omega) (c := 44) (by decide) (by omega) r 0
    simpa using this
  have hc : ∀ n r, strchr 44 (fmt 10 n ++ 44 :: r) = .ok (some (44 :: r)) := by
    intro n r
    apply strchr_spec
    intro x hx
    have := mem_fmt (b := 10) (by omega) hx
    omega
  have hc0 : ∀ r, strchr 44 (padTo 32 10 (fmt 10 (size % 2 ^ 32)) ++ 44 :: r) =
      .ok (some (44 :: r)) := by
    intro r
    apply strchr_spec
    intro x hx
    have := mem_padTo (b := 10) (by omega) hx
    omega
  unfold readIdent
  simp only [h1, h2, h3, hc, hc0, scanLit, bind, Except.bind, orReject, orCrash, if_true,
    List.tail_cons]
  rw [← hT', hm]
  simp only []
  by_cases he : id' = id
  · subst he
    simp
  · rw [if_neg he, if_pos]
    obtain ⟨a, b, c⟩ := id
    obtain ⟨a', b', c'⟩ := id'
    simp only [Ident.mk.injEq] at he
    dsimp only
    by_cases ha : a = a'
    · by_cases hb : b = b'
      · right; right
        intro hc'
        exact he ⟨ha.symm, hb.symm, hc'.symm⟩
      · right; left; exact hb
    · left; exact ha

/-! ## The whole file -/

/-- What the reader makes of a written file, whatever the offset lists: a file of
another module is rejected; a file without debug information is rejected for a
module that has it; otherwise the table is built by the additions in the file. -/
theorem readFile_writeFile {id : Ident} (hid : GoodIdent id) {debug : Bool} {es : Table}
    (hes : ∀ e ∈ es, GoodName e.1 ∧ e.2.list ≠ []) (id' : Ident) (hasSyms : Bool) :
    readFile id' hasSyms (some (writeFile id debug es)) =
      if id' = id ∧ ¬ (debug = false ∧ hasSyms = true) then
        (adds [] (entryOps es)).map fun t => (t, debug)
      else .error .reject := by
  have hw := writeFile_eq (id := id) (debug := debug) (es := es)
    (fun e he => Nat.lt_trans (hes e he).1.len (by decide))
  generalize hF : writeFile id debug es = F at hw
  generalize hpd : padding F.length = pad
  have hmem : F ++ List.replicate pad 0 = header ++ 32 :: (fmt 10 version ++ 10 ::
      (padTo 32 10 (fmt 10 (F.length % 2 ^ 32)) ++ ([44] ++ fmt 10 id.fileSize ++
        [44] ++ fmt 10 id.timestamp ++ md5Text id.md5 ++ 10 ::
        (fmt 10 (if debug then 1 else 0) ++ 10 :: (entryText es ++ List.replicate pad 0))))) := by
    conv => lhs; rw [hw]
    simp [restText]
  have hlen : F.length ≠ 0 := by
    rw [hw]
    simp only [List.length_append, List.length_cons]
    omega
  obtain ⟨pre, hpre, hri⟩ := readIdent_spec hid id' F.length
    (fmt 10 (if debug then 1 else 0) ++ 10 :: (entryText es ++ List.replicate pad 0))
  generalize padTo 32 10 (fmt 10 (F.length % 2 ^ 32)) ++ ([44] ++ fmt 10 id.fileSize ++
        [44] ++ fmt 10 id.timestamp ++ md5Text id.md5 ++ 10 ::
        (fmt 10 (if debug then 1 else 0) ++ 10 :: (entryText es ++ List.replicate pad 0))) = L
    at hri hmem
  unfold readFile
  simp only [bind, Except.bind]
  rw [if_neg hlen]
  simp only [hpd, hmem]
  have ht : (header ++ 32 :: (fmt 10 version ++ 10 :: L)).take header.length = header :=
    List.take_left' rfl
  have hd : (header ++ 32 :: (fmt 10 version ++ 10 :: L)).drop (header.length + 1) =
      fmt 10 version ++ 10 :: L := by
    have : header ++ 32 :: (fmt 10 version ++ 10 :: L) =
        (header ++ [32]) ++ (fmt 10 version ++ 10 :: L) := by simp
    rw [this]
    exact List.drop_left' (by simp)
  have hv := scan10 (n := version) (w := 32) (by decide) (by omega) (c := 10) (by decide)
    (by omega) L 0
  rw [List.replicate_zero, List.nil_append] at hv
  have hs : strchr 10 (header ++ 32 :: (fmt 10 version ++ 10 :: L)) = .ok (some (10 :: L)) := by
    have : header ++ 32 :: (fmt 10 version ++ 10 :: L) =
        (header ++ [32] ++ fmt 10 version) ++ 10 :: L := by simp
    rw [this]
    apply strchr_spec
    decide
  rw [ht, hd, hv, hs]
  simp only [orReject, orCrash, ne_eq, not_true, if_false, List.tail_cons, hri]
  by_cases hi : id' = id
  · rw [if_pos hi]
    simp only [hi, true_and]
    have hb : strchr 10 (pre ++ 10 :: (fmt 10 (if debug then 1 else 0) ++ 10 ::
        (entryText es ++ List.replicate pad 0))) = .ok (some (10 :: (fmt 10 (if debug then 1 else 0)
          ++ 10 :: (entryText es ++ List.replicate pad 0)))) := strchr_spec hpre _
    have hn := scan10 (n := if debug then 1 else 0) (w := 32) (by cases debug <;> decide)
      (by omega) (c := 10) (by decide) (by omega) (entryText es ++ List.replicate pad 0) 0
    rw [List.replicate_zero, List.nil_append] at hn
    have hb2 : strchr 10 (fmt 10 (if debug then 1 else 0) ++ 10 ::
        (entryText es ++ List.replicate pad 0)) =
        .ok (some (10 :: (entryText es ++ List.replicate pad 0))) := by
      apply strchr_spec
      intro x hx
      have := mem_fmt (b := 10) (by omega) hx
      omega
    unfold readBody
    simp only [bind, Except.bind, hb, orCrash, List.tail_cons, hn, orReject, hb2]
    have hrl := readLines_entries (pad := pad) es (entryText es ++ List.replicate pad 0).length.succ
      [] [] hes (by rw [List.length_append]; omega)
    rw [List.length_cons, hrl]
    cases debug <;> cases hasSyms <;> simp
    all_goals (cases adds [] (entryOps es) <;> rfl)
  · rw [if_neg hi]
    simp [hi]

/-! ## Rebuilding the lists -/

theorem upds_tail : ∀ (suf pre : List Nat), pre ≠ [] → pre ≠ [0] → (pre ++ suf).Nodup →
    (pre.length = 1 → suf.head? ≠ some 0) → upds pre suf = some (pre ++ suf)
  | [], pre, _, _, _, _ => by simp [upds]
  | x :: suf, pre, h1, h2, h3, h4 => by
    have hx : x ∉ pre := by
      intro hm
      rw [List.nodup_append] at h3
      exact h3.2.2 x hm x (List.mem_cons_self ..) rfl
    have hu : upd pre x = some (pre ++ [x]) := by
      unfold upd
      rw [if_neg h2, if_neg (fun h => h4 h.1 (by simp [h.2])), if_neg hx]
    have ih := upds_tail suf (pre ++ [x]) (by simp)
      (by
        intro h
        cases pre with
        | nil => exact h1 rfl
        | cons a b => simp at h)
      (by simpa using h3)
      (by
        intro h
        cases pre with
        | nil => exact absurd rfl h1
        | cons a b => simp at h)
    unfold upds at ih ⊢
    rw [List.foldlM_cons, hu]
    show List.foldlM upd (pre ++ [x]) suf = _
    rw [ih]
    simp

theorem upds_self {o : OList} (hi : OInv o) : upds [] o.list = some o.list := by
  rcases hi.zero with h | ⟨a, r, h, ha, hr⟩
  · rw [h]; rfl
  · have hn := hi.nodup
    rw [h] at hn ⊢
    have := upds_tail r [a] (by simp) (by simpa using ha) (by simpa using hn) (fun _ => hr)
    unfold upds at this ⊢
    rw [List.foldlM_cons]
    show List.foldlM upd [a] r = _
    rw [this]
    rfl

theorem offsetsOf_entryOps {es : Table} (hn : (es.map (·.1)).Nodup) (sym : Str) :
    offsetsOf (entryOps es) sym = (listOf es sym).map (· % 2 ^ 32) := by
  induction es with
  | nil => rfl
  | cons e es ih =>
    rw [List.map_cons, List.nodup_cons] at hn
    have h1 : entryOps (e :: es) = (e.2.list.map fun o => (e.1, o % 2 ^ 32)) ++ entryOps es := by
      simp [entryOps]
    have h2 : offsetsOf ((e.2.list.map fun o => (e.1, o % 2 ^ 32)) ++ entryOps es) sym =
        (if e.1 = sym then e.2.list.map (· % 2 ^ 32) else []) ++ offsetsOf (entryOps es) sym := by
      unfold offsetsOf
      rw [List.filter_append, List.map_append]
      congr 1
      by_cases he : e.1 = sym
      · rw [if_pos he, List.filter_eq_self.2]
        · rw [List.map_map]; rfl
        · intro x hx
          rw [List.mem_map] at hx
          obtain ⟨o, _, rfl⟩ := hx
          simpa using he
      · rw [if_neg he, List.filter_eq_nil_iff.2]
        · rfl
        · intro x hx
          rw [List.mem_map] at hx
          obtain ⟨o, _, rfl⟩ := hx
          simpa using he
    rw [h1, h2, ih hn.2]
    unfold listOf lookupTable Table.find
    rw [List.find?_cons]
    by_cases he : e.1 = sym
    · have hnone : es.find? (fun e => decide (e.1 = sym)) = none := by
        rw [List.find?_eq_none]
        intro x hx
        simp
        intro hxe
        exact hn.1 (List.mem_map.2 ⟨x, hx, by rw [hxe, he]⟩)
      simp [he, hnone]
    · simp [he]

/-- Additions in the order of a table of good lists give the table back. -/
theorem adds_entryOps {es : Table} (hi : TInv es) (hb : ∀ e ∈ es, ∀ o ∈ e.2.list, o < 2 ^ 32) :
    ∃ t, adds [] (entryOps es) = .ok t ∧ TInv t ∧ ∀ sym, listOf t sym = listOf es sym := by
  have hbo : ∀ e ∈ entryOps es, e.2 + 1 < 2 ^ 64 := by
    intro e he
    unfold entryOps at he
    rw [List.mem_flatten] at he
    obtain ⟨l, hl, he⟩ := he
    rw [List.mem_map] at hl
    obtain ⟨e', _, rfl⟩ := hl
    rw [List.mem_map] at he
    obtain ⟨o, _, rfl⟩ := he
    have : o % 2 ^ 32 < 2 ^ 32 := Nat.mod_lt _ (by decide)
    have h64 : (2 : Nat) ^ 32 < 2 ^ 64 := by decide
    show o % 2 ^ 32 + 1 < 2 ^ 64
    omega
  have hseq : ∀ sym, upds [] (offsetsOf (entryOps es) sym) = some (listOf es sym) := by
    intro sym
    rw [offsetsOf_entryOps hi.names]
    cases hf : es.find sym with
    | none =>
      have : listOf es sym = [] := by simp [listOf, lookupTable, hf]
      rw [this]; rfl
    | some o =>
      have hl : listOf es sym = o.list := by simp [listOf, lookupTable, hf]
      have hm := find_some hf
      have : o.list.map (· % 2 ^ 32) = o.list := by
        conv => rhs; rw [← List.map_id o.list]
        apply List.map_congr_left
        intro x hx
        exact Nat.mod_eq_of_lt (hb _ hm x hx)
      rw [hl, this]
      exact upds_self (hi.lists _ hm)
  rcases adds_spec hbo TInv.nil with ⟨⟨s, h1⟩, _⟩ | ⟨t, h1, h2, h3⟩
  · have : listOf [] s = [] := rfl
    rw [this, hseq] at h1
    cases h1
  · refine ⟨t, h1, h2, fun sym => ?_⟩
    have h4 := h3 sym
    have : listOf [] sym = [] := rfl
    rw [this, hseq] at h4
    exact (Option.some.inj h4).symm

/-! ## C33 -/

/-- Tables the format can hold. -/
structure GoodTable (t : Table) : Prop where
  inv : TInv t
  names : ∀ e ∈ t, GoodName e.1
  offs : ∀ e ∈ t, ∀ o ∈ e.2.list, o < 2 ^ 32

/-- C33: for a module `id`, write the table in any order of iteration `es` and read it
back for the same module: every symbol has the same offsets in the same order,
negative entries included.  Partial: names must be shorter than 256 characters,
not empty and without commas and newlines, offsets below 2^32
(`C33_comma`, `C33_long`, `C33_large`, `C33_large_abort`). -/
theorem C33_roundtrip_partial {id : Ident} (hid : GoodIdent id) {t es : Table}
    (hg : GoodTable t) (hp : es.Perm t) (debug hasSyms : Bool)
    (hd : hasSyms = true → debug = true) :
    ∃ t', readFile id hasSyms (some (writeFile id debug es)) = .ok (t', debug) ∧
      ∀ sym, lookupTable t' sym = lookupTable t sym := by
  have hi : TInv es := ⟨(hp.map (·.1)).nodup_iff.2 hg.inv.names,
    fun e he => hg.inv.lists e (hp.mem_iff.1 he)⟩
  obtain ⟨t', h1, h2, h3⟩ := adds_entryOps hi (fun e he => hg.offs e (hp.mem_iff.1 he))
  refine ⟨t', ?_, fun sym => ?_⟩
  · rw [readFile_writeFile hid (fun e he => ⟨hg.names e (hp.mem_iff.1 he), (hi.lists e he).ne⟩)]
    have hne : ¬ (debug = false ∧ hasSyms = true) := by
      rintro ⟨ha, hb⟩
      rw [hd hb] at ha
      cases ha
    rw [if_pos ⟨rfl, hne⟩, h1]
    rfl
  · have hf : es.find sym = t.find sym := by
      cases hf : es.find sym with
      | some o => exact (find_of_mem hg.inv.names (hp.mem_iff.1 (find_some hf))).symm
      | none =>
        cases hf' : t.find sym with
        | none => rfl
        | some o =>
          rw [find_of_mem hi.names (hp.mem_iff.2 (find_some hf'))] at hf
          cases hf
    rw [listOf_ne h2, h3, ← listOf_ne hi]
    unfold lookupTable
    rw [hf]

/-- C33: a file written for one module is never used for a module with other
consistency fields, nor, when it was written without debug information, for one
that has it. -/
theorem C33_stale {id : Ident} (hid : GoodIdent id) {t es : Table} (hg : GoodTable t)
    (hp : es.Perm t) (debug hasSyms : Bool) (id' : Ident)
    (h : id' ≠ id ∨ (debug = false ∧ hasSyms = true)) :
    readFile id' hasSyms (some (writeFile id debug es)) = .error .reject := by
  rw [readFile_writeFile hid (fun e he => ⟨hg.names e (hp.mem_iff.1 he),
    (hg.inv.lists e (hp.mem_iff.1 he)).ne⟩), if_neg]
  rintro ⟨h1, h2⟩
  rcases h with h | h
  · exact h h1
  · exact h2 h

/-! ## Where the format fails -/

deriving instance DecidableEq for Except

def sampleId : Ident := ⟨123456, 1700000000, [0, 1, 2, 3, 4, 5, 6, 7, 8, 9, 10, 200, 12, 13, 14, 255]⟩

/-- C33 fails for a name with a comma: the name `a,0x7` with offset 5 comes back as the
name `a` with offset 7. -/
theorem C33_comma :
    ∃ t', readFile sampleId false
        (some (writeFile sampleId true [([97, 44, 48, 120, 55], ⟨[5], none⟩)])) = .ok (t', true) ∧
      lookupTable t' [97, 44, 48, 120, 55] = none ∧ lookupTable t' [97] = some [7] := by
  refine ⟨[([97], ⟨[7], none⟩)], ?_, ?_, ?_⟩ <;> decide +kernel

/-- C33 fails for a name of 256 characters: it is lost, and so are all names after it. -/
theorem C33_long :
    ∃ t', readFile sampleId false
        (some (writeFile sampleId true [([98], ⟨[3], none⟩),
          (List.replicate 256 97, ⟨[5], none⟩), ([99], ⟨[9], none⟩)])) = .ok (t', true) ∧
      lookupTable t' [98] = some [3] ∧ lookupTable t' (List.replicate 256 97) = none ∧
      lookupTable t' [99] = none := by
  refine ⟨[([98], ⟨[3], none⟩)], ?_, ?_, ?_, ?_⟩ <;> decide +kernel

/-- C33 fails for offsets from 2^32 on: they are cut to 32 bits. -/
theorem C33_large :
    ∃ t', readFile sampleId false
        (some (writeFile sampleId true [([97], ⟨[2 ^ 32 + 5], none⟩)])) = .ok (t', true) ∧
      lookupTable t' [97] = some [5] := by
  refine ⟨[([97], ⟨[5], none⟩)], ?_, ?_⟩ <;> decide +kernel

/-- C33: such a cut offset can abort the process that reads the file. -/
theorem C33_large_abort :
    readFile sampleId false
      (some (writeFile sampleId true [([97], ⟨[5, 2 ^ 32], none⟩)])) = .error .abort := by
  decide +kernel

/-- The reader crashes on a file that consists of the first line without its end. -/
theorem C33_crash :
    readFile sampleId false (some (header ++ [32, 49, 54])) = .error .crash := by
  decide +kernel

/-- A table with a negative entry, a list with a table of its own, and one more. -/
def sampleTable : Table :=
  [([109, 97], ⟨[0], none⟩), ([102], ⟨[16, 32, 48], some [17, 33, 49]⟩), ([120, 32], ⟨[7], none⟩)]

theorem sampleTable_good : GoodTable sampleTable := by
  refine ⟨⟨by decide, ?_⟩, ?_, by decide⟩
  · intro e he
    simp only [sampleTable, List.mem_cons, List.not_mem_nil, or_false] at he
    rcases he with h | h | h <;> subst h
    · exact ⟨by simp, by decide, .inl rfl, by decide, .inl ⟨rfl, by decide⟩⟩
    · refine ⟨by simp, by decide, .inr ⟨16, _, rfl, by decide, by decide⟩, by decide,
        .inr ⟨_, rfl, by decide, fun x _ => ?_⟩⟩
      simp
    · exact ⟨by simp, by decide, .inr ⟨7, _, rfl, by decide, by decide⟩, by decide,
        .inl ⟨rfl, by decide⟩⟩
  · intro e he
    simp only [sampleTable, List.mem_cons, List.not_mem_nil, or_false] at he
    rcases he with h | h | h <;> subst h <;> exact ⟨by simp, by decide, by decide⟩

example : GoodIdent sampleId ∧ GoodTable sampleTable ∧
    (writeFile sampleId true sampleTable).length = 147 ∧
    readFile sampleId true (some (writeFile sampleId true sampleTable)) =
      .ok ([([109, 97], ⟨[0], none⟩), ([102], ⟨[16, 32, 48], some [17, 33, 49]⟩),
        ([120, 32], ⟨[7], none⟩)], true) ∧
    readFile sampleId true (some (writeFile sampleId false sampleTable)) = .error .reject := by
  refine ⟨⟨by decide, by decide, by decide, by decide⟩, sampleTable_good, ?_, ?_, ?_⟩ <;>
    decide +kernel

end Verif.SymCache
