import Verif.Umbra32Inv
/-!
# Replacing, storing and clearing keep the invariant
-/
namespace Verif.Umbra32

/-- Shadow as a user sees it. -/
abbrev Sh := Nat → Option UInt8

/-- Block `k` of shadow made present: what was missing has the default value. -/
def present (c : Cfg) (sh : Sh) (k : Nat) : Sh :=
  fun t => if t / S c = k then some ((sh t).getD c.dflt) else sh t

/-- `m'` comes from `m` by changes to entry `k` only: blocks stay in use, other entries and the list of
shared blocks are unchanged, a private block stays where it is, and shared blocks keep their bytes. -/
structure Ext (c : Cfg) (m m' : Map) (k : Nat) : Prop where
  live : ∀ b, b ∈ m.live → b ∈ m'.live
  specials : m'.specials = m.specials
  dflt : m'.dflt = m.dflt
  blk : ∀ j, j ≠ k → getBlock c m' j = getBlock c m j
  priv : ¬ Shared c m (getBlock c m k) → getBlock c m' k = getBlock c m k
  mem : ∀ b i, b ∈ m.live → Shared c m b → i < S c → m'.mem (b + i) = m.mem (b + i)

theorem Ext.refl (c : Cfg) (m : Map) (k : Nat) : Ext c m m k :=
  ⟨fun _ h => h, rfl, rfl, fun _ _ => rfl, fun _ => rfl, fun _ _ _ _ _ => rfl⟩

theorem Ext.shared {c : Cfg} {m m' : Map} {k : Nat} (h : Ext c m m' k) (b : Nat) :
    Shared c m' b ↔ Shared c m b := by rw [Shared, Shared, h.dflt, h.specials]

theorem Ext.trans {c : Cfg} {m m' m'' : Map} {k : Nat} (h : Ext c m m' k) (h' : Ext c m' m'' k)
    : Ext c m m'' k where
  live := fun b hb => h'.live b (h.live b hb)
  specials := h'.specials.trans h.specials
  dflt := h'.dflt.trans h.dflt
  blk := fun j hj => (h'.blk j hj).trans (h.blk j hj)
  priv := fun hp => by
    have h1 := h.priv hp
    rw [h'.priv, h1]
    rw [h1, h.shared]; exact hp
  mem := fun b i hb hs hi => (h'.mem b i (h.live b hb) ((h.shared b).2 hs) hi).trans (h.mem b i hb hs hi)

theorem blk_add {c : Cfg} (hc : c.Valid) {k i : Nat} (h : i < S c) :
    (k * S c + i) / S c = k ∧ (k * S c + i) % S c = i := by
  have hs := S_bounds hc
  constructor
  · rw [Nat.mul_comm, Nat.mul_add_div (by omega), Nat.div_eq_of_lt h]; omega
  · rw [Nat.mul_comm, Nat.mul_add_mod, Nat.mod_eq_of_lt h]

theorem view_shared_special {c : Cfg} {m : Map} (hi : Inv c m) {t v : Nat}
    (h : (getBlock c m (t / S c), v) ∈ m.specials) (hlt : t % S c < S c) :
    view c m t = some (UInt8.ofNat v) := by
  rw [view, if_neg, (hi.spec _ h).2.2 _ hlt]
  rintro ⟨h1, h2⟩
  exact (hi.dfl h1).2.2 _ h h2

theorem sharedValue_none {c : Cfg} (hc : c.Valid) {m : Map} (hi : Inv c m) {a : Nat}
    (h : sharedValue c m a = none) : ¬ Shared c m (getBlock c m (a / B)) := by
  rw [sharedValue, appToShadow_eq hc hi] at h
  have hl := scale_off_lt hc a
  split at h
  · simp at h
  · next hd =>
    rw [isDefault_iff hc hi (hi.tbl _) hl] at hd
    rintro (hs | ⟨p, hp, he⟩)
    · exact hd hs
    · exact isSpecial_none hc hi (hi.tbl _) hl h p hp he

/-- The value of a shared block is the value a user sees, or the default where nothing was created. -/
theorem sharedValue_some {c : Cfg} (hc : c.Valid) {m : Map} (hi : Inv c m) {a v : Nat}
    (h : sharedValue c m a = some v) : Shared c m (getBlock c m (a / B)) ∧
      ∀ t, t / S c = a / B → (view c m t).getD c.dflt = UInt8.ofNat v := by
  rw [sharedValue, appToShadow_eq hc hi] at h
  have hl := scale_off_lt hc a
  split at h
  · next hd =>
    rw [isDefault_iff hc hi (hi.tbl _) hl] at hd
    simp only [Option.some.injEq] at h
    refine ⟨Or.inl hd, fun t ht => ?_⟩
    rw [view, ht, if_pos hd, ← h]
    simp
  · next hd =>
    have h1 := isSpecial_some hc hi (hi.tbl _) hl h
    refine ⟨Or.inr ⟨_, h1, rfl⟩, fun t ht => ?_⟩
    have hlt : t % S c < S c := Nat.mod_lt _ (by have := S_bounds hc; omega)
    rw [view_shared_special hi (v := v) (by rw [ht]; exact h1) hlt]
    rfl

theorem present_self {c : Cfg} {m : Map} {k : Nat} (h : ¬ Shared c m (getBlock c m k)) :
    present c (view c m) k = view c m := by
  funext t
  rw [present]
  split
  · next ht =>
    rw [view, ht, if_neg (fun h' => h (Or.inl h'))]
    rfl
  · rfl

/-- `shadow_table_replace_block`: the block is private afterwards, the user sees no change except that
missing shadow is present with default values. -/
theorem replaceBlock_spec {c : Cfg} (hc : c.Valid) {al : Alloc} (ha : al.Good c) {m : Map}
    (hi : Inv c m) (a : Nat) :
    (replaceBlock c al m a).2 = .oom ∨
    ((replaceBlock c al m a).2 = .ok ∧ Inv c (replaceBlock c al m a).1 ∧
      ¬ Shared c (replaceBlock c al m a).1 (getBlock c (replaceBlock c al m a).1 (a / B)) ∧
      view c (replaceBlock c al m a).1 = present c (view c m) (a / B) ∧
      Ext c m (replaceBlock c al m a).1 (a / B)) := by
  rw [replaceBlock]
  cases hsv : sharedValue c m a with
  | none =>
    have := sharedValue_none hc hi hsv
    exact Or.inr ⟨rfl, hi, this, (present_self this).symm, Ext.refl c m _⟩
  | some v =>
    obtain ⟨hsh, hval⟩ := sharedValue_some hc hi hsv
    dsimp only
    cases hcb : createBlock c al m with
    | none => exact Or.inl rfl
    | some r =>
      obtain ⟨m1, b⟩ := r
      obtain ⟨g, gp⟩ := createBlock_spec ha hcb
      dsimp only
      rw [store_ok gp]
      dsimp only
      right
      have hni := g.notin hc
      have glo := g.lo
      have ghi := g.hi
      have hbW : b < W := by omega
      -- the map before the entry is set
      generalize hm2 : ({ m1 with mem := Umbra.memput m1.mem b (S c) fun _ => UInt8.ofNat v } : Map) = m2
      have e_table : m2.table = m.table := by rw [← hm2]; exact g.table
      have e_dflt : m2.dflt = m.dflt := by rw [← hm2]; exact g.dflt
      have e_spec : m2.specials = m.specials := by rw [← hm2]; exact g.specials
      have e_live : m2.live = b :: m.live := by rw [← hm2]; exact g.live
      have e_perm : ∀ x i, x ∈ m.live → i < S c → m2.perm (x + i) = m.perm (x + i) := by
        intro x i hx hlt; rw [← hm2]; exact g.perm_old hx hlt
      have e_permb : ∀ i, i < S c → m2.perm (b + i) = .rw := by
        intro i hlt; rw [← hm2]; exact gp i hlt
      have e_mem : ∀ x i, x ∈ m.live → i < S c → m2.mem (x + i) = m.mem (x + i) := by
        intro x i hx hlt
        rw [← hm2]; dsimp only
        have := g.apart _ hx
        unfold Apart at this
        rw [memput_out (by omega), g.mem_old hx hlt]
      have e_memb : ∀ i, i < S c → m2.mem (b + i) = UInt8.ofNat v := by
        intro i hlt
        rw [← hm2]; dsimp only
        rw [Umbra.memput, if_pos (by omega)]
      have e_disj : ∀ x ∈ m2.live, ∀ y ∈ m2.live, x ≠ y → Apart c x y := by
        rw [← hm2]; exact g.disj hi
      have e_bound : ∀ x ∈ m2.live, S c + c.rz ≤ x ∧ x + S c + c.rz < W := by
        rw [← hm2]; exact g.bound hi
      have e_blk : ∀ k, getBlock c m2 k = getBlock c m k := by
        intro k; rw [getBlock, getBlock, e_table]
      have sub : ∀ x, x ∈ m.live → x ∈ m2.live := fun x hx => by
        rw [e_live]; exact List.mem_cons_of_mem _ hx
      generalize hm3 : setBlock c m2 (a / B) b = m3
      have f_blk : ∀ k, getBlock c m3 k = if k = a / B then b else getBlock c m k := by
        intro k; rw [← hm3, getBlock_set c _ _ _ _ hbW, e_blk]
      have f_dflt : m3.dflt = m.dflt := by rw [← hm3]; exact e_dflt
      have f_spec : m3.specials = m.specials := by rw [← hm3]; exact e_spec
      have f_live : m3.live = m2.live := by rw [← hm3]; rfl
      have f_mem : m3.mem = m2.mem := by rw [← hm3]; rfl
      have f_perm : m3.perm = m2.perm := by rw [← hm3]; rfl
      have sh_iff : ∀ x, Shared c m3 x ↔ Shared c m x := by
        intro x; rw [Shared, Shared, f_dflt, f_spec]
      have hbns : ¬ Shared c m b := by
        rintro (⟨h1, h2⟩ | ⟨p, hp, he⟩)
        · exact hni (h2 ▸ (hi.dfl h1).1)
        · exact hni (he ▸ (hi.spec p hp).1)
      refine ⟨by rfl, ⟨?_, ?_, ?_, ?_, ?_, ?_, ?_, ?_, ?_, ?_⟩, ?_, ?_, ⟨?_, f_spec, f_dflt, ?_, ?_, ?_⟩⟩
      · rw [f_live]; exact e_disj
      · rw [f_live]; exact e_bound
      · intro k
        rw [f_blk, f_live]
        split
        · rw [e_live]; exact List.mem_cons_self
        · exact sub _ (hi.tbl k)
      · intro ht; rw [f_dflt]; exact hi.touch0 ht
      · intro ht
        obtain ⟨d1, d2, d3⟩ := hi.dfl ht
        rw [f_dflt, f_live, f_mem, f_spec]
        exact ⟨sub _ d1, fun i hlt => (e_mem _ i d1 hlt).trans (d2 i hlt), d3⟩
      · intro p hp
        rw [f_spec] at hp
        obtain ⟨s1, s2, s3⟩ := hi.spec p hp
        rw [f_live, f_mem]
        exact ⟨sub _ s1, s2, fun i hlt => (e_mem _ i s1 hlt).trans (s3 i hlt)⟩
      · intro ht; rw [f_spec]; exact hi.touch ht
      · intro k j hkj he
        rw [sh_iff]
        rw [f_blk, f_blk] at he
        rw [f_blk]
        by_cases hk : k = a / B
        · rw [if_pos hk] at he ⊢
          rw [if_neg (by omega)] at he
          exact absurd (hi.tbl j) (he ▸ hni)
        · rw [if_neg hk] at he ⊢
          by_cases hj : j = a / B
          · rw [if_pos hj] at he
            exact absurd (hi.tbl k) (he.symm ▸ hni)
          · rw [if_neg hj] at he
            exact hi.own k j hkj he
      · intro x hx hns i hlt
        rw [f_perm]
        rw [f_live, e_live] at hx
        rw [sh_iff] at hns
        rcases List.mem_cons.1 hx with rfl | hx
        · exact e_permb i hlt
        · rw [e_perm _ _ hx hlt]; exact hi.perm x hx hns i hlt
      · intro x hsh i hlt
        rw [sh_iff] at hsh
        have hx : x ∈ m.live := by
          rcases hsh with ⟨h1, h2⟩ | ⟨p, hp, he⟩
          · exact h2 ▸ (hi.dfl h1).1
          · exact he ▸ (hi.spec p hp).1
        rw [f_perm, e_perm _ _ hx hlt]
        exact hi.ro x hsh i hlt
      · rw [sh_iff, f_blk, if_pos rfl]; exact hbns
      · funext t
        have hlt : t % S c < S c := Nat.mod_lt _ (by have := S_bounds hc; omega)
        rw [view, present, f_blk, f_dflt, f_mem]
        split
        · next ht =>
          rw [if_neg, hval t ht, e_memb _ hlt]
          rintro ⟨h1, h2⟩
          exact hni (h2 ▸ (hi.dfl h1).1)
        · next ht =>
          rw [view, e_mem _ _ (hi.tbl _) hlt]
      · intro x hx; rw [f_live]; exact sub x hx
      · intro j hj; rw [f_blk, if_neg hj]
      · intro hn; exact absurd hsh hn
      · intro x i hx _ hlt; rw [f_mem]; exact e_mem x i hx hlt

/-- Storing in a private block: the user sees exactly the stored bytes changed. -/
theorem store_priv {c : Cfg} (hc : c.Valid) {m : Map} (hi : Inv c m) {k o n : Nat} {f : Nat → UInt8}
    (hns : ¬ Shared c m (getBlock c m k)) (hon : o + n ≤ S c) :
    ∃ m', store m (getBlock c m k + o) n f = some m' ∧ Inv c m' ∧
      ¬ Shared c m' (getBlock c m' k) ∧
      view c m' = (fun t => if k * S c + o ≤ t ∧ t < k * S c + o + n then some (f (t - (k * S c + o)))
        else view c m t) ∧
      Ext c m m' k := by
  have hp : ∀ t, t < n → m.perm (getBlock c m k + o + t) = .rw := by
    intro t ht
    rw [Nat.add_assoc]
    exact hi.perm _ (hi.tbl k) hns _ (by omega)
  rw [store_ok hp]
  have hmem : ∀ b i, b ∈ m.live → b ≠ getBlock c m k → i < S c →
      Umbra.memput m.mem (getBlock c m k + o) n f (b + i) = m.mem (b + i) := by
    intro b i hb hne hlt
    have := hi.disj _ hb _ (hi.tbl k) hne
    unfold Apart at this
    exact memput_out (by omega)
  refine ⟨_, rfl, ⟨hi.disj, hi.bound, hi.tbl, hi.touch0, ?_, ?_, hi.touch, hi.own, hi.perm, hi.ro⟩, hns, ?_,
    ⟨fun _ h => h, rfl, rfl, fun _ _ => rfl, fun _ => rfl, fun b i hb hs hlt => hmem b i hb (fun he =>
      hns (he ▸ hs)) hlt⟩⟩
  · intro ht
    obtain ⟨d1, d2, d3⟩ := hi.dfl ht
    refine ⟨d1, fun i hlt => ?_, d3⟩
    dsimp only
    rw [hmem _ _ d1 _ hlt, d2 i hlt]
    intro he
    exact hns (Or.inl ⟨ht, he.symm⟩)
  · intro p hp
    obtain ⟨s1, s2, s3⟩ := hi.spec p hp
    refine ⟨s1, s2, fun i hlt => ?_⟩
    dsimp only
    rw [hmem _ _ s1 _ hlt, s3 i hlt]
    intro he
    exact hns (Or.inr ⟨p, hp, he⟩)
  · funext t
    have hs := S_bounds hc
    have hlt : t % S c < S c := Nat.mod_lt _ (by omega)
    have hdm := Nat.div_add_mod t (S c)
    rw [Nat.mul_comm] at hdm
    by_cases hk : t / S c = k
    · have hb : getBlock c { m with mem := Umbra.memput m.mem (getBlock c m k + o) n f } k
          = getBlock c m k := rfl
      rw [view, hk, hb]
      rw [if_neg (fun h' => hns (Or.inl h'))]
      rw [view, hk, if_neg (fun h' => hns (Or.inl h'))]
      rw [hk] at hdm
      dsimp only
      rw [Umbra.memput]
      by_cases hin : k * S c + o ≤ t ∧ t < k * S c + o + n
      · rw [if_pos hin, if_pos (by omega)]
        congr 2
        omega
      · rw [if_neg hin, if_neg (by omega)]
    · have hnin : ¬ (k * S c + o ≤ t ∧ t < k * S c + o + n) := by
        intro hin
        apply hk
        have := blk_add hc (k := k) (i := t - k * S c) (by omega)
        rw [show k * S c + (t - k * S c) = t by omega] at this
        exact this.1
      rw [if_neg hnin]
      have hb : getBlock c { m with mem := Umbra.memput m.mem (getBlock c m k + o) n f } (t / S c)
          = getBlock c m (t / S c) := rfl
      rw [view, view, hb]
      dsimp only
      by_cases he : getBlock c m (t / S c) = getBlock c m k
      · exact absurd (he ▸ hi.own _ _ hk he) hns
      · rw [hmem _ _ (hi.tbl _) he hlt]

/-- Pointing an entry that had no shadow at a special block. -/
theorem setSpecial_spec {c : Cfg} (hc : c.Valid) {m : Map} (hi : Inv c m) {k b v : Nat}
    (hb : (b, v) ∈ m.specials) :
    Inv c (setBlock c m k b) ∧
      view c (setBlock c m k b) = fun t => if t / S c = k then some (UInt8.ofNat v) else view c m t := by
  have hbl := (hi.spec _ hb).1
  have hbW : b < W := by have := hi.bound _ hbl; omega
  have f_blk : ∀ j, getBlock c (setBlock c m k b) j = if j = k then b else getBlock c m j :=
    fun j => getBlock_set c m k b j hbW
  refine ⟨⟨hi.disj, hi.bound, ?_, hi.touch0, hi.dfl, hi.spec, hi.touch, ?_, hi.perm, hi.ro⟩, ?_⟩
  · intro j
    rw [f_blk]
    split
    · exact hbl
    · exact hi.tbl j
  · intro i j hij he
    rw [f_blk] at he ⊢
    split
    · exact Or.inr ⟨_, hb, rfl⟩
    · next h =>
      rw [if_neg h, f_blk] at he
      split at he
      · rw [he]; exact Or.inr ⟨_, hb, rfl⟩
      · exact hi.own i j hij he
  · funext t
    have hlt : t % S c < S c := Nat.mod_lt _ (by have := S_bounds hc; omega)
    rw [view, f_blk]
    split
    · next h =>
      rw [if_neg]
      · exact congrArg some ((hi.spec _ hb).2.2 _ hlt)
      · rintro ⟨h1, h2⟩
        exact (hi.dfl h1).2.2 _ hb h2
    · rfl

/-- Freeing a private block whose bytes are all the default value and pointing its entry at the special
block of that value. -/
theorem clearOne_spec {c : Cfg} (hc : c.Valid) (ht : c.onTouch = true) {m : Map} (hi : Inv c m)
    (n i : Nat) :
    Inv c (clearOne c (m, n) i).1 ∧ view c (clearOne c (m, n) i).1 = view c m ∧
    (clearOne c (m, n) i).1.specials = m.specials ∧
    (∀ j, j ≠ i → getBlock c (clearOne c (m, n) i).1 j = getBlock c m j) ∧
    (Shared c m (getBlock c (clearOne c (m, n) i).1 i) ∨
      (getBlock c (clearOne c (m, n) i).1 i = getBlock c m i ∧
        ∃ t, t / S c = i ∧ view c m t ≠ some c.dflt)) := by
  have hs := S_bounds hc
  have hb0 := hi.tbl i
  rw [clearOne]
  dsimp only
  by_cases hn : isNormal c m (getBlock c m i) = false
  · rw [hn, if_pos (by rfl)]
    refine ⟨hi, rfl, rfl, fun _ _ => rfl, Or.inl ?_⟩
    simp only [isNormal, Bool.and_eq_false_iff, Bool.not_eq_false', Option.isNone_eq_false_iff] at hn
    rcases hn with h | h
    · have := (isDefault_iff hc hi hb0 (i := 0) (by omega)).1 h
      exact Or.inl this
    · obtain ⟨v, hv⟩ := Option.isSome_iff_exists.1 h
      exact Or.inr ⟨_, isSpecial_some hc hi hb0 (i := 0) (by omega) hv, rfl⟩
  · simp only [Bool.not_eq_false] at hn
    rw [hn, if_neg (by simp)]
    simp only [isNormal, Bool.and_eq_true, Bool.not_eq_true', Option.isNone_iff_eq_none] at hn
    have hns : ¬ Shared c m (getBlock c m i) := by
      rintro (h | ⟨p, hp, h⟩)
      · have := (isDefault_iff hc hi hb0 (i := 0) (by omega)).2 h
        rw [Nat.add_zero, hn.1] at this
        simp at this
      · exact isSpecial_none hc hi hb0 (i := 0) (by omega) hn.2 p hp h
    by_cases hall : ¬ ((List.range (S c)).all fun j => m.mem (getBlock c m i + j) = c.dflt) = true
    · rw [if_neg hall]
      refine ⟨hi, rfl, rfl, fun _ _ => rfl, Or.inr ⟨rfl, ?_⟩⟩
      simp only [List.all_eq_true, List.mem_range, decide_eq_true_eq, Classical.not_forall] at hall
      obtain ⟨j, hj, hne⟩ := hall
      obtain ⟨e1, e2⟩ := blk_add hc (k := i) hj
      refine ⟨i * S c + j, e1, ?_⟩
      rw [view, e1, e2, if_neg (fun h' => hns (Or.inl h'))]
      intro h
      exact hne (by simpa using h)
    · simp only [Classical.not_not] at hall
      rw [if_pos hall]
      simp only [List.all_eq_true, List.mem_range, decide_eq_true_eq] at hall
      -- the special block of the default value exists
      obtain ⟨b, hb, hbs⟩ : ∃ b, lookupSpecial m c.dflt.toNat = some b ∧ (b, c.dflt.toNat) ∈ m.specials := by
        obtain ⟨p, hp, he⟩ := hi.touch ht
        rw [lookupSpecial]
        cases hf : m.specials.find? fun p => p.2 = c.dflt.toNat with
        | none =>
          have := List.find?_eq_none.1 hf p hp
          simp [he] at this
        | some q =>
          have h1 := List.mem_of_find?_eq_some hf
          have h2 := List.find?_some hf
          simp only [decide_eq_true_eq] at h2
          exact ⟨q.1, rfl, by rw [← h2]; exact h1⟩
      rw [hb]
      simp only [Option.getD_some]
      generalize hx : getBlock c m i = x at *
      have hbx : b ≠ x := fun h => hns (Or.inr ⟨_, hbs, h⟩)
      -- the map with the entry moved first
      obtain ⟨j1, j2⟩ := setSpecial_spec hc hi (k := i) hbs
      have hbW : b < W := by have := hi.bound _ (hi.spec _ hbs).1; omega
      have hblk : ∀ j, getBlock c (setBlock c (deleteBlock m x) i b) j =
          if j = i then b else getBlock c m j := by
        intro j
        rw [getBlock_set c _ _ _ _ hbW]
        rfl
      have hother : ∀ j, j ≠ i → getBlock c m j ≠ x := by
        intro j hj he
        have := hi.own j i hj (he.trans hx.symm)
        rw [he] at this
        exact hns this
      have hmemlive : ∀ y, y ∈ m.live → y ≠ x → y ∈ (setBlock c (deleteBlock m x) i b).live := by
        intro y hy hne
        show y ∈ m.live.filter (· ≠ x)
        rw [List.mem_filter]
        exact ⟨hy, by simpa using hne⟩
      have hsub : ∀ y, y ∈ (setBlock c (deleteBlock m x) i b).live → y ∈ m.live := by
        intro y hy
        exact (List.mem_filter.1 hy).1
      have hv : view c (setBlock c (deleteBlock m x) i b) = view c (setBlock c m i b) := by
        funext t; rfl
      refine ⟨⟨?_, ?_, ?_, hi.touch0, ?_, ?_, hi.touch, j1.own, ?_, hi.ro⟩, ?_, rfl, ?_, ?_⟩
      · intro y hy z hz hne
        exact hi.disj y (hsub _ hy) z (hsub _ hz) hne
      · intro y hy; exact hi.bound y (hsub _ hy)
      · intro j
        rw [hblk]
        split
        · exact hmemlive _ (hi.spec _ hbs).1 hbx
        · next h => exact hmemlive _ (hi.tbl j) (hother j h)
      · intro h; rw [ht] at h; simp at h
      · intro p hp
        obtain ⟨s1, s2, s3⟩ := hi.spec p hp
        refine ⟨hmemlive _ s1 ?_, s2, s3⟩
        intro he
        exact hns (Or.inr ⟨p, hp, he⟩)
      · intro y hy hnsy
        exact hi.perm y (hsub _ hy) hnsy
      · rw [hv, j2]
        funext t
        split
        · next h =>
          rw [view, h, hx, if_neg (fun h' => hns (Or.inl h')), hall _ (Nat.mod_lt _ (by omega))]
          simp
        · rfl
      · intro j hj; rw [hblk, if_neg hj]
      · left
        rw [hblk, if_pos rfl]
        exact Or.inr ⟨_, hbs, rfl⟩

end Verif.Umbra32
