import Verif.Modules
import Verif.RegionsProps
import Mathlib.Data.List.Basic
import Mathlib.Data.List.Pairwise
import Mathlib.Tactic.ByContra

/-! # C32: module lookups -/
namespace Verif.Cs
open Verif.RB Verif.Regions

/-! ## Specification -/

/-- The byte at `a` belongs to the module. -/
def Mod.Has (m : Mod) (a : Nat) : Prop :=
  if m.contiguous then m.start ≤ a ∧ a < m.stop else ∃ g ∈ m.segs, g.1 ≤ a ∧ a < g.2

/-- What the loader guarantees about a module: it is not empty and does not reach the end of the
address space; the segments are not empty, lie inside the module and are sorted. -/
structure Mod.WF (m : Mod) : Prop where
  lt : m.start < m.stop
  top : m.stop < W
  ne : m.contiguous = false → m.segs ≠ []
  inside : m.contiguous = false → ∀ g ∈ m.segs, m.start ≤ g.1 ∧ g.1 < g.2 ∧ g.2 ≤ m.stop
  sorted : m.contiguous = false → m.segs.Pairwise fun g h => g.2 ≤ h.1

/-- The module is made of whole pages and does not use page 0. -/
structure Mod.Aligned (m : Mod) : Prop where
  low : 4096 ≤ m.start
  start : m.start % 4096 = 0
  stop : m.stop % 4096 = 0
  segs : ∀ g ∈ m.segs, g.1 % 4096 = 0 ∧ g.2 % 4096 = 0

/-- The events: a module is loaded, a module is unloaded, one of the two lookups is made. -/
inductive Op
  | load (m : Mod)
  | unload (m : Mod)
  | lookup (pc : Nat)
  | isIn (pc : Nat)

/-- The modules loaded after an event. -/
def loaded (L : List Mod) : Op → List Mod
  | .load m => m :: L
  | .unload m => L.erase m
  | _ => L

/-- Modules are loaded into free address space, and only loaded modules are unloaded. -/
def Ok (L : List Mod) : Op → Prop
  | .load m => m.WF ∧ ∀ n ∈ L, ∀ a, m.Has a → ¬ n.Has a
  | .unload m => m ∈ L
  | _ => True

/-- A whole history is possible. -/
def OkAll : List Mod → List Op → Prop
  | _, [] => True
  | L, op :: ops => Ok L op ∧ OkAll (loaded L op) ops

/-- The code run on one event. -/
def step (d : Bool) (s : Tr) : Op → Option Tr
  | .load m => loadTree d m s
  | .unload m => unloadTree m s
  | .lookup pc => some (moduleLookup pc s).1
  | .isIn pc => some (isInModule pc s).1

/-- `[s, s + n)` is a maximal piece of module `m`. -/
def Mod.Piece (m : Mod) (s n : Nat) : Prop :=
  0 < n ∧ (∀ a, s ≤ a → a < s + n → m.Has a) ∧ ¬ m.Has (s + n) ∧ (0 < s → ¬ m.Has (s - 1))

/-! ## Regions of a module -/

theorem regionsGo_spec : ∀ (l : List (Nat × Nat)) (b e : Nat), b < e →
    (∀ g ∈ l, e ≤ g.1 ∧ g.1 < g.2) → l.Pairwise (fun g h => g.2 ≤ h.1) →
    (∀ r ∈ regionsGo b e l, b ≤ r.1 ∧ r.1 < r.2) ∧
    (regionsGo b e l).Pairwise (fun r q => r.2 < q.1) ∧
    (∀ a, (∃ r ∈ regionsGo b e l, r.1 ≤ a ∧ a < r.2) ↔
      (b ≤ a ∧ a < e) ∨ ∃ g ∈ l, g.1 ≤ a ∧ a < g.2) ∧
    (∀ r ∈ regionsGo b e l, (r.1 = b ∨ ∃ g ∈ l, r.1 = g.1) ∧ (r.2 = e ∨ ∃ g ∈ l, r.2 = g.2)) := by
  intro l
  induction l with
  | nil =>
    intro b e hbe _ _
    simp [regionsGo, hbe]
  | cons g l ih =>
    obtain ⟨s', e'⟩ := g
    intro b e hbe hl hp
    rw [List.pairwise_cons] at hp
    have hg := hl (s', e') (by simp)
    simp only at hg
    unfold regionsGo
    split
    · rename_i hlt
      obtain ⟨i1, i2, i3, i4⟩ := ih s' e' hg.2
        (fun g hg' => ⟨hp.1 g hg', (hl g (by simp [hg'])).2⟩) hp.2
      refine ⟨?_, ?_, ?_, ?_⟩
      · intro r hr
        rcases List.mem_cons.1 hr with rfl | hr
        · exact ⟨Nat.le_refl _, hbe⟩
        · have := i1 r hr; omega
      · rw [List.pairwise_cons]
        refine ⟨fun r hr => ?_, i2⟩
        have := i1 r hr
        simp only; omega
      · intro a
        rw [List.exists_mem_cons_iff, List.exists_mem_cons_iff, i3 a]
      · intro r hr
        rcases List.mem_cons.1 hr with rfl | hr
        · exact ⟨.inl rfl, .inl rfl⟩
        · obtain ⟨j1, j2⟩ := i4 r hr
          constructor
          · rcases j1 with j | ⟨g, hg, j⟩
            · exact .inr ⟨_, List.mem_cons_self .., j⟩
            · exact .inr ⟨g, List.mem_cons_of_mem _ hg, j⟩
          · rcases j2 with j | ⟨g, hg, j⟩
            · exact .inr ⟨_, List.mem_cons_self .., j⟩
            · exact .inr ⟨g, List.mem_cons_of_mem _ hg, j⟩
    · rename_i hlt
      obtain ⟨i1, i2, i3, i4⟩ := ih b e' (by omega)
        (fun g hg' => ⟨hp.1 g hg', (hl g (by simp [hg'])).2⟩) hp.2
      refine ⟨i1, i2, ?_, ?_⟩
      · intro a
        rw [List.exists_mem_cons_iff, i3 a, ← or_assoc]
        refine or_congr ?_ Iff.rfl
        simp only
        omega
      · intro r hr
        obtain ⟨j1, j2⟩ := i4 r hr
        constructor
        · rcases j1 with j | ⟨g, hg, j⟩
          · exact .inl j
          · exact .inr ⟨g, List.mem_cons_of_mem _ hg, j⟩
        · rcases j2 with j | ⟨g, hg, j⟩
          · exact .inr ⟨_, List.mem_cons_self .., j⟩
          · exact .inr ⟨g, List.mem_cons_of_mem _ hg, j⟩

/-- The regions the loader loop produces are the maximal pieces of the module. -/
theorem regions_spec {m : Mod} (hm : m.WF) : ∃ rs, regions m = some rs ∧
    (∀ r ∈ rs, m.start ≤ r.1 ∧ r.1 < r.2 ∧ r.2 ≤ m.stop) ∧
    rs.Pairwise (fun r q => r.2 < q.1) ∧
    (∀ a, m.Has a ↔ ∃ r ∈ rs, r.1 ≤ a ∧ a < r.2) ∧
    (m.Aligned → ∀ r ∈ rs, r.1 % 4096 = 0 ∧ r.2 % 4096 = 0) := by
  unfold regions Mod.Has
  split
  · refine ⟨_, rfl, ?_, by simp, by simp, ?_⟩
    · simp [hm.lt]
    · intro h; simp [h.start, h.stop]
  · rename_i hc
    rw [Bool.not_eq_true] at hc
    have hne := hm.ne hc
    have hin := hm.inside hc
    have hs := hm.sorted hc
    cases hsegs : m.segs with
    | nil => exact absurd hsegs hne
    | cons g l =>
      obtain ⟨b, e⟩ := g
      rw [hsegs, List.pairwise_cons] at hs
      rw [hsegs] at hin
      have hg := hin (b, e) (by simp)
      simp only at hg
      obtain ⟨i1, i2, i3, i4⟩ := regionsGo_spec l b e hg.2.1
        (fun g hg' => ⟨hs.1 g hg', (hin g (by simp [hg'])).2.1⟩) hs.2
      refine ⟨_, rfl, ?_, i2, ?_, ?_⟩
      · intro r hr
        have h1 := i1 r hr
        obtain ⟨-, j2⟩ := i4 r hr
        refine ⟨by omega, h1.2, ?_⟩
        rcases j2 with j | ⟨g, hg', j⟩
        · omega
        · have := (hin g (by simp [hg'])).2.2; omega
      · intro a
        rw [i3 a, List.exists_mem_cons_iff]
      · intro hal r hr
        have ha := hal.segs
        rw [hsegs] at ha
        obtain ⟨j1, j2⟩ := i4 r hr
        constructor
        · rcases j1 with j | ⟨g, hg', j⟩
          · rw [j]; exact (ha (b, e) (by simp)).1
          · rw [j]; exact (ha g (by simp [hg'])).1
        · rcases j2 with j | ⟨g, hg', j⟩
          · rw [j]; exact (ha (b, e) (by simp)).2
          · rw [j]; exact (ha g (by simp [hg'])).2

/-! ## Adding and removing all regions -/

/-- The cached bounds enclose the tree. -/
def Bounds (s : Tr) : Prop :=
  (toList s.tree = [] ∧ s.minStart = 0 ∧ s.maxEnd = 0) ∨
  (4096 ≤ s.minStart ∧ ∀ e ∈ toList s.tree, s.minStart ≤ e.base ∧ e.base + e.size ≤ s.maxEnd)

/-- The entry of a region. -/
def ent (info : Nat) (r : Nat × Nat) : Ent := ⟨r.1, r.2 - r.1, info⟩

theorem addAll (d : Bool) (info : Nat) : ∀ (rs : List (Nat × Nat)) (s : Tr), Valid s.tree →
    (∀ r ∈ rs, r.1 < r.2 ∧ r.2 < W) → rs.Pairwise (fun r q => r.2 < q.1) →
    (∀ r ∈ rs, ∀ e ∈ toList s.tree, ¬ Overlap (ent info r) e) →
    ∃ s', rs.foldlM (addRegion d info) s = some s' ∧ Valid s'.tree ∧
      (∀ x, x ∈ toList s'.tree ↔ (∃ r ∈ rs, x = ent info r) ∨ x ∈ toList s.tree) ∧
      (s'.lastStart = s.lastStart ∧ s'.lastSize = s.lastSize ∧ s'.lastInfo = s.lastInfo) ∧
      (Bounds s → (∀ r ∈ rs, 4096 ≤ r.1) → Bounds s') := by
  intro rs
  induction rs with
  | nil =>
    intro s hv _ _ _
    exact ⟨s, rfl, hv, by simp, ⟨rfl, rfl, rfl⟩, fun h _ => h⟩
  | cons r rs ih =>
    intro s hv hg hp hno
    rw [List.pairwise_cons] at hp
    have hr := hg r (by simp)
    have hgood : Good (ent info r) := by unfold Good ent; simp only; omega
    obtain ⟨t', h1, h2, h3⟩ := ins_fresh (d := d) hv hgood (hno r (by simp))
    have hs1 : addRegion d info s r = some
        { s with
          tree := t'
          minStart := if r.1 < s.minStart ∨ s.minStart = 0 then r.1 else s.minStart
          maxEnd := if r.2 > s.maxEnd then r.2 else s.maxEnd } := by
      unfold addRegion
      rw [sub64_eq (Nat.le_of_lt hr.1) hr.2]
      unfold ent at h1
      rw [h1]; rfl
    obtain ⟨s', i1, i2, i3, i4, i5⟩ := ih
        { s with
          tree := t'
          minStart := if r.1 < s.minStart ∨ s.minStart = 0 then r.1 else s.minStart
          maxEnd := if r.2 > s.maxEnd then r.2 else s.maxEnd } h2 (fun q hq => hg q (by simp [hq])) hp.2
      (by
        intro q hq e he
        simp only at he
        rcases (h3 e).1 he with rfl | he
        · have := hp.1 q hq
          have := (hg q (by simp [hq])).1
          rw [overlap_iff (by unfold ent; simp only; omega) (by unfold ent; simp only; omega)]
          unfold ent; simp only; omega
        · exact hno q (by simp [hq]) e he)
    refine ⟨s', by rw [List.foldlM_cons, hs1]; exact i1, i2, ?_, i4, ?_⟩
    · intro x
      rw [i3 x, List.exists_mem_cons_iff]
      simp only [h3 x]
      constructor
      · rintro (h | h | h)
        · exact .inl (.inr h)
        · exact .inl (.inl h)
        · exact .inr h
      · rintro ((h | h) | h)
        · exact .inr (.inl h)
        · exact .inl h
        · exact .inr (.inr h)
    · intro hb h4
      refine i5 ?_ (fun q hq => h4 q (by simp [hq]))
      have h4r := h4 r (by simp)
      right
      rcases hb with ⟨b1, b2, b3⟩ | ⟨b1, b2⟩
      · simp only [b2, b3, or_true, if_true]
        refine ⟨h4r, fun e he => ?_⟩
        rcases (h3 e).1 he with rfl | he
        · unfold ent; simp only
          rw [if_pos (show r.2 > 0 by omega)]; omega
        · rw [b1] at he; cases he
      · simp only
        constructor
        · split <;> omega
        · intro e he
          rcases (h3 e).1 he with rfl | he
          · unfold ent; simp only
            constructor <;> split <;> omega
          · have := b2 e he
            constructor <;> split <;> omega

theorem removeAll : ∀ (rs : List (Nat × Nat)) (s : Tr), Valid s.tree →
    ∃ s', rs.foldlM removeRegion s = some s' ∧ Valid s'.tree ∧
      (∀ x, x ∈ toList s'.tree ↔ x ∈ toList s.tree ∧ ∀ r ∈ rs, x.base ≠ r.1) := by
  intro rs
  induction rs with
  | nil => intro s hv; exact ⟨s, rfl, hv, by simp⟩
  | cons r rs ih =>
    intro s hv
    have h1 : ∃ s1, removeRegion s r = some s1 ∧ Valid s1.tree ∧
        ∀ x, x ∈ toList s1.tree ↔ x ∈ toList s.tree ∧ x.base ≠ r.1 := by
      unfold removeRegion
      cases hf : find r.1 s.tree with
      | none =>
        refine ⟨s, rfl, hv, fun x => ⟨fun hx => ⟨hx, fun hb => ?_⟩, fun h => h.1⟩⟩
        rw [(C15_find r.1 x hv).2 ⟨hx, hb⟩] at hf
        cases hf
      | some n =>
        have hn := (C15_find r.1 n hv).1 hf
        obtain ⟨t', j1, j2, j3⟩ := C15_delete n.base hv
        refine ⟨{ s with tree := t' }, by simp [j1], j2, fun x => ?_⟩
        rw [j3 x, hn.2]
    obtain ⟨s1, a1, a2, a3⟩ := h1
    obtain ⟨s', b1, b2, b3⟩ := ih s1 a2
    refine ⟨s', by rw [List.foldlM_cons, a1]; exact b1, b2, fun x => ?_⟩
    rw [b3 x, a3 x, List.forall_mem_cons, and_assoc]

/-! ## The invariant -/

theorem pairwise_sym {α : Type} {R : α → α → Prop} {l : List α} (h : l.Pairwise R) :
    ∀ x ∈ l, ∀ y ∈ l, x ≠ y → R x y ∨ R y x := by
  induction l with
  | nil => simp
  | cons a l ih =>
    rw [List.pairwise_cons] at h
    intro x hx y hy hne
    rcases List.mem_cons.1 hx with rfl | hx' <;> rcases List.mem_cons.1 hy with rfl | hy'
    · exact absurd rfl hne
    · exact .inl (h.1 y hy')
    · exact .inr (h.1 x hx')
    · exact ih h.2 x hx' y hy' hne

/-- What every history maintains. -/
structure Rel (s : Tr) (L : List Mod) : Prop where
  valid : Valid s.tree
  wf : ∀ m ∈ L, m.WF
  disj : L.Pairwise fun m n => ∀ a, m.Has a → ¬ n.Has a
  ents : ∀ e, e ∈ toList s.tree ↔ ∃ m ∈ L, ∃ rs, regions m = some rs ∧ ∃ r ∈ rs, e = ent m.path r
  cache : s.lastStart ≠ 0 → (⟨s.lastStart, s.lastSize, s.lastInfo⟩ : Ent) ∈ toList s.tree

theorem Rel.disj' {s : Tr} {L : List Mod} (h : Rel s L) {m n : Mod} (hm : m ∈ L) (hn : n ∈ L)
    {a : Nat} (h1 : m.Has a) (h2 : n.Has a) : m = n := by
  by_contra hne
  rcases pairwise_sym h.disj m hm n hn hne with h | h
  · exact h a h1 h2
  · exact h a h2 h1

theorem ent_covers {m : Mod} {r : Nat × Nat} (hr : r.1 < r.2) (a : Nat) :
    Covers (ent m.path r) a ↔ r.1 ≤ a ∧ a < r.2 := by
  unfold Covers ent; simp only; omega

theorem Rel.covers {s : Tr} {L : List Mod} (h : Rel s L) (a : Nat) :
    (∃ e ∈ toList s.tree, Covers e a) ↔ ∃ m ∈ L, m.Has a := by
  constructor
  · rintro ⟨e, he, hc⟩
    obtain ⟨m, hm, rs, hrs, r, hr, rfl⟩ := (h.ents e).1 he
    obtain ⟨rs', h1, h2, -, h4, -⟩ := regions_spec (h.wf m hm)
    rw [hrs] at h1
    obtain rfl := Option.some.inj h1
    exact ⟨m, hm, (h4 a).2 ⟨r, hr, (ent_covers (h2 r hr).2.1 a).1 hc⟩⟩
  · rintro ⟨m, hm, ha⟩
    obtain ⟨rs, h1, h2, -, h4, -⟩ := regions_spec (h.wf m hm)
    obtain ⟨r, hr, hra⟩ := (h4 a).1 ha
    exact ⟨ent m.path r, (h.ents _).2 ⟨m, hm, rs, h1, r, hr, rfl⟩,
      (ent_covers (h2 r hr).2.1 a).2 hra⟩

/-- Every entry is a maximal piece of a loaded module. -/
theorem Rel.piece {s : Tr} {L : List Mod} (h : Rel s L) {e : Ent} (he : e ∈ toList s.tree) :
    ∃ m ∈ L, e.client = m.path ∧ m.Piece e.base e.size ∧ m.start ≤ e.base ∧
      e.base + e.size ≤ m.stop := by
  obtain ⟨m, hm, rs, hrs, r, hr, rfl⟩ := (h.ents e).1 he
  obtain ⟨rs', h1, h2, h3, h4, -⟩ := regions_spec (h.wf m hm)
  rw [hrs] at h1
  obtain rfl := Option.some.inj h1
  have hr' := h2 r hr
  have hsep : ∀ q ∈ rs, q = r ∨ q.2 < r.1 ∨ r.2 < q.1 := by
    intro q hq
    by_cases hqr : q = r
    · exact .inl hqr
    · right
      exact pairwise_sym h3 q hq r hr hqr
  refine ⟨m, hm, rfl, ⟨by unfold ent; simp only; omega, ?_, ?_, ?_⟩, hr'.1,
    by unfold ent; simp only; omega⟩
  · intro a ha1 ha2
    unfold ent at ha1 ha2
    simp only at ha1 ha2
    exact (h4 a).2 ⟨r, hr, ha1, by omega⟩
  · intro hh
    obtain ⟨q, hq, hqa⟩ := (h4 _).1 hh
    unfold ent at hqa
    simp only at hqa
    have := h2 q hq
    rcases hsep q hq with rfl | h | h <;> omega
  · intro hpos hh
    obtain ⟨q, hq, hqa⟩ := (h4 _).1 hh
    unfold ent at hqa hpos
    simp only at hqa hpos
    have := h2 q hq
    rcases hsep q hq with rfl | h | h <;> omega

/-- The lookup with its cache is the lookup in the tree. -/
theorem Rel.lookup_eq {s : Tr} {L : List Mod} (h : Rel s L) (pc : Nat) :
    (moduleLookup pc s).2 = (inNode pc s.tree).map fun n => (n.base, n.size, n.client) := by
  unfold moduleLookup
  split
  · rename_i hc
    have he := h.cache hc.1
    have hg := h.valid.good _ he
    rw [add64_eq hg.2] at hc
    rw [(C15_in_node pc _ h.valid).2 ⟨he, hc.2⟩]
    rfl
  · cases inNode pc s.tree <;> rfl

theorem Rel.lookup_rel {s : Tr} {L : List Mod} (h : Rel s L) (pc : Nat) :
    Rel (moduleLookup pc s).1 L ∧ (Bounds s → Bounds (moduleLookup pc s).1) ∧
    (moduleLookup pc s).1.tree = s.tree ∧ (moduleLookup pc s).1.lastHit = s.lastHit ∧
    (moduleLookup pc s).1.lastMiss = s.lastMiss := by
  unfold moduleLookup
  split
  · exact ⟨h, id, rfl, rfl, rfl⟩
  · cases hi : inNode pc s.tree with
    | none => exact ⟨h, id, rfl, rfl, rfl⟩
    | some n =>
      refine ⟨⟨h.valid, h.wf, h.disj, h.ents, fun _ => ?_⟩, id, rfl, rfl, rfl⟩
      exact ((C15_in_node pc n h.valid).1 hi).1

theorem Rel.load (d : Bool) {s : Tr} {L : List Mod} (h : Rel s L) {m : Mod}
    (hm : m.WF) (hfree : ∀ n ∈ L, ∀ a, m.Has a → ¬ n.Has a) :
    ∃ s', loadTree d m s = some s' ∧ Rel s' (m :: L) ∧ s'.lastHit = 0 ∧ s'.lastMiss = 0 ∧
      (Bounds s → 4096 ≤ m.start → Bounds s') := by
  obtain ⟨rs, h1, h2, h3, h4, h5⟩ := regions_spec hm
  have hno : ∀ r ∈ rs, ∀ e ∈ toList s.tree, ¬ Overlap (ent m.path r) e := by
    rintro r hr e he ⟨a, ha1, ha2⟩
    obtain ⟨n, hn, hna⟩ := (h.covers a).1 ⟨e, he, ha2⟩
    exact hfree n hn a ((h4 a).2 ⟨r, hr, (ent_covers (h2 r hr).2.1 a).1 ha1⟩) hna
  obtain ⟨s', i1, i2, i3, i4, i5⟩ := addAll d m.path rs s h.valid
    (fun r hr => ⟨(h2 r hr).2.1, by have := (h2 r hr).2.2; have := hm.top; omega⟩) h3 hno
  refine ⟨{ s' with lastHit := 0, lastMiss := 0 }, by simp [loadTree, h1, i1], ?_, rfl, rfl, ?_⟩
  · refine ⟨i2, ?_, ?_, ?_, ?_⟩
    · intro n hn
      rcases List.mem_cons.1 hn with rfl | hn
      · exact hm
      · exact h.wf n hn
    · rw [List.pairwise_cons]
      exact ⟨fun n hn => hfree n hn, h.disj⟩
    · intro e
      simp only
      rw [i3 e, List.exists_mem_cons_iff, h.ents e]
      refine or_congr ⟨fun hx => ⟨rs, h1, hx⟩, ?_⟩ Iff.rfl
      rintro ⟨rs', h1', hx⟩
      rw [h1] at h1'
      obtain rfl := Option.some.inj h1'
      exact hx
    · intro hc
      simp only at hc ⊢
      rw [i4.1, i4.2.1, i4.2.2]
      rw [i4.1] at hc
      exact (i3 _).2 (.inr (h.cache hc))
  · intro hb h4'
    exact i5 hb (fun r hr => by have := (h2 r hr).1; omega)

theorem Rel.unload {s : Tr} {L : List Mod} (h : Rel s L) {m : Mod} (hm : m ∈ L) :
    ∃ s', unloadTree m s = some s' ∧ Rel s' (L.erase m) ∧ s'.lastHit = 0 ∧ s'.lastMiss = 0 ∧
      ((∀ n ∈ L, 4096 ≤ n.start) → Bounds s') := by
  obtain ⟨rs, h1, h2, h3, h4, h5⟩ := regions_spec (h.wf m hm)
  obtain ⟨s', i1, i2, i3⟩ := removeAll rs s h.valid
  have hnd : L.Nodup := by
    refine h.disj.imp_of_mem ?_
    intro a b ha hb hab heq
    subst heq
    obtain ⟨rs', j1, j2, -, j4, -⟩ := regions_spec (h.wf a ha)
    have hw := h.wf a ha
    cases hc : a.contiguous with
    | true =>
      have : a.Has a.start := by unfold Mod.Has; rw [hc]; simp [hw.lt]
      exact hab _ this this
    | false =>
      obtain ⟨g, l, hgl⟩ := List.exists_cons_of_ne_nil (hw.ne hc)
      have : a.Has g.1 := by
        unfold Mod.Has; rw [hc]
        simp only [Bool.false_eq_true, if_false]
        exact ⟨g, by simp [hgl], Nat.le_refl _, (hw.inside hc g (by simp [hgl])).2.1⟩
      exact hab _ this this
  have hents : ∀ e, e ∈ toList s'.tree ↔
      ∃ n ∈ L.erase m, ∃ rs, regions n = some rs ∧ ∃ r ∈ rs, e = ent n.path r := by
    intro e
    rw [i3 e, h.ents e]
    constructor
    · rintro ⟨⟨n, hn, ns, hns, r, hr, rfl⟩, hb⟩
      refine ⟨n, ?_, ns, hns, r, hr, rfl⟩
      refine (List.mem_erase_of_ne ?_).2 hn
      rintro rfl
      rw [h1] at hns
      obtain rfl := Option.some.inj hns
      exact hb r hr rfl
    · rintro ⟨n, hn, ns, hns, r, hr, rfl⟩
      have hn' := hnd.mem_erase_iff.1 hn
      refine ⟨⟨n, hn'.2, ns, hns, r, hr, rfl⟩, fun q hq hb => hn'.1 ?_⟩
      obtain ⟨ns', j1, j2, -, j4, -⟩ := regions_spec (h.wf n hn'.2)
      rw [hns] at j1
      obtain rfl := Option.some.inj j1
      unfold ent at hb
      simp only at hb
      refine h.disj' hn'.2 hm (a := r.1) ((j4 _).2 ⟨r, hr, Nat.le_refl _, (j2 r hr).2.1⟩) ?_
      rw [hb]
      exact (h4 _).2 ⟨q, hq, Nat.le_refl _, (h2 q hq).2.1⟩
  refine ⟨_, by simp only [unloadTree, h1, Option.bind_some, i1, Option.map_some]; rfl, ?_, rfl,
    rfl, ?_⟩
  · exact ⟨i2, fun n hn => h.wf n (List.mem_of_mem_erase hn), h.disj.sublist List.erase_sublist,
      hents, fun hc => absurd rfl hc⟩
  · intro hlow
    have hbase : ∀ e ∈ toList s'.tree, 4096 ≤ e.base := by
      intro e he
      obtain ⟨n, hn, ns, hns, r, hr, rfl⟩ := (hents e).1 he
      have hn' := List.mem_of_mem_erase hn
      obtain ⟨ns', j1, j2, -⟩ := regions_spec (h.wf n hn')
      rw [hns] at j1
      obtain rfl := Option.some.inj j1
      have := (j2 r hr).1
      have := hlow n hn'
      unfold ent; simp only; omega
    unfold Bounds
    simp only
    cases hmx : maxNode s'.tree with
    | none =>
      have he := (C17_max i2).2.1 hmx
      have hmn := (C17_min i2).2.2 he
      left
      simp [he, hmn]
    | some x =>
      have hx := ((C17_max i2).1 x).1 hmx
      cases hmn : minNode s'.tree with
      | none =>
        have he := (C17_min i2).2.1 hmn
        rw [he] at hx; cases hx.1
      | some y =>
        have hy := ((C17_min i2).1 y).1 hmn
        right
        simp only
        refine ⟨hbase y hy.1, fun e he => ⟨hy.2 e he, ?_⟩⟩
        have hgx := i2.good x hx.1
        rw [add64_eq hgx.2]
        by_cases hex : e = x
        · subst hex; exact Nat.le_refl _
        · have hd := i2.disj e he x hx.1 hex
          rw [overlap_iff (i2.good e he).1 hgx.1] at hd
          have := hx.2 e he
          have := hgx.1
          omega

/-- One event. -/
theorem Rel.step (d : Bool) {s : Tr} {L : List Mod} (h : Rel s L) (op : Op) (hok : Ok L op) :
    ∃ s', step d s op = some s' ∧ Rel s' (loaded L op) := by
  cases op with
  | load m =>
    obtain ⟨s', h1, h2, -⟩ := h.load d hok.1 hok.2
    exact ⟨s', h1, h2⟩
  | unload m =>
    obtain ⟨s', h1, h2, -⟩ := h.unload hok
    exact ⟨s', h1, h2⟩
  | lookup pc => exact ⟨_, rfl, (h.lookup_rel pc).1⟩
  | isIn pc =>
    refine ⟨_, rfl, ?_⟩
    unfold isInModule
    have hk : ∀ s' : Tr, s'.tree = s.tree → s'.lastStart = s.lastStart →
        s'.lastSize = s.lastSize → s'.lastInfo = s.lastInfo → Rel s' L := by
      intro s' e1 e2 e3 e4
      exact ⟨e1 ▸ h.valid, h.wf, h.disj, e1 ▸ h.ents, by rw [e1, e2, e3, e4]; exact h.cache⟩
    repeat' split
    all_goals exact hk _ rfl rfl rfl rfl

theorem Rel.init : Rel {} [] :=
  ⟨Valid.nil, by simp, by simp, by simp [toList], fun h => absurd rfl h⟩

theorem Rel.history (d : Bool) : ∀ (ops : List Op) (s : Tr) (L : List Mod), Rel s L → OkAll L ops →
    ∃ s', ops.foldlM (Cs.step d) s = some s' ∧ Rel s' (ops.foldl loaded L) := by
  intro ops
  induction ops with
  | nil => intro s L h _; exact ⟨s, rfl, h⟩
  | cons op ops ih =>
    intro s L h hok
    obtain ⟨s1, h1, h2⟩ := h.step d op hok.1
    obtain ⟨s', h3, h4⟩ := ih s1 _ h2 hok.2
    exact ⟨s', by rw [List.foldlM_cons, h1]; exact h3, h4⟩

/-! ## C32 -/

/-- C32: after any history of loads, unloads and lookups (in debug and release builds), looking up
an address answers "no module" exactly if no loaded module contains the address; otherwise the
answer names the loaded module containing the address and gives the bounds of the maximal piece of
this module around the address. -/
theorem C32_module_lookup (d : Bool) (ops : List Op) (hok : OkAll [] ops) :
    ∃ s, ops.foldlM (step d) {} = some s ∧ ∀ pc,
      ((moduleLookup pc s).2 = none ↔ ∀ m ∈ ops.foldl loaded [], ¬ m.Has pc) ∧
      ∀ start size info, (moduleLookup pc s).2 = some (start, size, info) →
        ∃ m ∈ ops.foldl loaded [], m.path = info ∧ m.Has pc ∧ start ≤ pc ∧ pc < start + size ∧
          m.Piece start size := by
  obtain ⟨s, h1, h⟩ := Rel.history d ops {} [] Rel.init hok
  refine ⟨s, h1, fun pc => ?_⟩
  rw [h.lookup_eq pc]
  constructor
  · rw [Option.map_eq_none_iff, C15_in_node_none pc h.valid]
    have := h.covers pc
    constructor
    · intro hn m hm hh
      obtain ⟨e, he, hc⟩ := this.2 ⟨m, hm, hh⟩
      exact hn e he hc
    · intro hn e he hc
      obtain ⟨m, hm, hh⟩ := this.1 ⟨e, he, hc⟩
      exact hn m hm hh
  · intro start size info hs
    rw [Option.map_eq_some_iff] at hs
    obtain ⟨e, he, heq⟩ := hs
    simp only [Prod.mk.injEq] at heq
    obtain ⟨rfl, rfl, rfl⟩ := heq
    obtain ⟨he, hc⟩ := (C15_in_node pc e h.valid).1 he
    obtain ⟨m, hm, hp, hpc, -⟩ := h.piece he
    exact ⟨m, hm, hp.symm, hpc.2.1 pc hc.1 hc.2, hc.1, hc.2, hpc⟩

/-- For a contiguous module the answer is the module's own bounds. -/
theorem C32_contiguous (m : Mod) (hc : m.contiguous = true) (pc s n : Nat) (hpc : m.Has pc)
    (h1 : s ≤ pc) (h2 : pc < s + n) (hp : m.Piece s n) : s = m.start ∧ s + n = m.stop := by
  unfold Mod.Piece Mod.Has at *
  simp only [hc, if_true] at *
  obtain ⟨p0, p1, p2, p3⟩ := hp
  have := p1 s (Nat.le_refl _) (by omega)
  have := p1 (s + n - 1) (by omega) (by omega)
  omega

theorem page_eq_iff {a b : Nat} (h : page a = page b) : a / 4096 = b / 4096 := by
  unfold page at h; omega

/-- The invariant with page-granular caches. -/
structure RelP (s : Tr) (L : List Mod) : Prop extends Rel s L where
  al : ∀ m ∈ L, m.Aligned
  bounds : Bounds s
  hit : s.lastHit ≠ 0 → ∀ a, page a = s.lastHit → ∃ m ∈ L, m.Has a
  miss : s.lastMiss ≠ 0 → ∀ a, page a = s.lastMiss → ¬ ∃ m ∈ L, m.Has a

theorem has_page {m : Mod} (hw : m.WF) (ha : m.Aligned) {a b : Nat} (h : page a = page b)
    (hm : m.Has a) : m.Has b := by
  obtain ⟨rs, h1, h2, -, h4, h5⟩ := regions_spec hw
  obtain ⟨r, hr, hra⟩ := (h4 a).1 hm
  have := h5 ha r hr
  have := page_eq_iff h
  exact (h4 b).2 ⟨r, hr, by omega, by omega⟩

theorem RelP.isIn {s : Tr} {L : List Mod} (h : RelP s L) (pc : Nat) :
    RelP (isInModule pc s).1 L ∧ ((isInModule pc s).2 = true ↔ ∃ m ∈ L, m.Has pc) := by
  have hr := h.toRel
  have hcov := hr.covers pc
  have hin : (inNode pc s.tree).isSome = true ↔ ∃ m ∈ L, m.Has pc := by
    rw [← hcov, Option.isSome_iff_exists]
    exact ⟨fun ⟨e, he⟩ => ⟨e, (C15_in_node pc e h.valid).1 he⟩,
      fun ⟨e, he⟩ => ⟨e, (C15_in_node pc e h.valid).2 he⟩⟩
  have hkeep : ∀ s' : Tr, s'.tree = s.tree → s'.lastStart = s.lastStart →
      s'.lastSize = s.lastSize → s'.lastInfo = s.lastInfo → Rel s' L := by
    intro s' e1 e2 e3 e4
    exact ⟨e1 ▸ h.valid, h.wf, h.disj, e1 ▸ h.ents, by rw [e1, e2, e3, e4]; exact h.cache⟩
  have hlow : (∃ m ∈ L, m.Has pc) → 4096 ≤ pc := by
    rintro ⟨m, hm, hh⟩
    obtain ⟨rs, h1, h2, -, h4, h5⟩ := regions_spec (h.wf m hm)
    obtain ⟨r, hr', hra⟩ := (h4 pc).1 hh
    have := (h2 r hr').1
    have := (h.al m hm).low
    omega
  unfold isInModule
  split
  · rename_i hb
    refine ⟨h, ?_⟩
    simp only [Bool.false_eq_true, false_iff]
    intro hh
    obtain ⟨e, he, hc⟩ := hcov.2 hh
    unfold Covers at hc
    rcases h.bounds with ⟨b1, -⟩ | ⟨b1, b2⟩
    · rw [b1] at he; cases he
    · have := b2 e he; omega
  · rename_i hb
    have hne : ¬ page pc = 0 := by
      rcases h.bounds with ⟨b1, b2, b3⟩ | ⟨b1, b2⟩
      · omega
      · unfold page; omega
    split
    · rename_i hm
      refine ⟨h, by simp only [Bool.false_eq_true, false_iff]; exact h.miss (by omega) pc hm⟩
    · split
      · rename_i hm
        refine ⟨h, by simp only [true_iff]; exact h.hit (by omega) pc hm⟩
      · split
        · rename_i hi
          have hh := hin.1 hi
          refine ⟨⟨hkeep _ rfl rfl rfl rfl, h.al, h.bounds, ?_, h.miss⟩, by simp [hh]⟩
          intro _ a ha
          obtain ⟨m, hm, hmp⟩ := hh
          exact ⟨m, hm, has_page (h.wf m hm) (h.al m hm) ha.symm hmp⟩
        · rename_i hi
          have hh : ¬ ∃ m ∈ L, m.Has pc := fun x => hi (hin.2 x)
          refine ⟨⟨hkeep _ rfl rfl rfl rfl, h.al, h.bounds, h.hit, ?_⟩, ?_⟩
          · rintro _ a ha ⟨m, hm, hmp⟩
            exact hh ⟨m, hm, has_page (h.wf m hm) (h.al m hm) ha hmp⟩
          · simp only [Bool.false_eq_true, false_iff]; exact hh

theorem RelP.history (d : Bool) : ∀ (ops : List Op) (s : Tr) (L : List Mod), RelP s L → OkAll L ops →
    (∀ m, Op.load m ∈ ops → m.Aligned) →
    ∃ s', ops.foldlM (Cs.step d) s = some s' ∧ RelP s' (ops.foldl loaded L) := by
  intro ops
  induction ops with
  | nil => intro s L h _ _; exact ⟨s, rfl, h⟩
  | cons op ops ih =>
    intro s L h hok hal
    have h1 : ∃ s1, Cs.step d s op = some s1 ∧ RelP s1 (loaded L op) := by
      cases op with
      | load m =>
        have ha := hal m (by simp)
        obtain ⟨s', h1, h2, h3, h4, h5⟩ := h.toRel.load d hok.1.1 hok.1.2
        refine ⟨s', h1, h2, ?_, h5 h.bounds ha.low, fun hc => absurd h3 hc, fun hc => absurd h4 hc⟩
        intro n hn
        rcases List.mem_cons.1 hn with rfl | hn
        · exact ha
        · exact h.al n hn
      | unload m =>
        obtain ⟨s', h1, h2, h3, h4, h5⟩ := h.toRel.unload hok.1
        exact ⟨s', h1, h2, fun n hn => h.al n (List.mem_of_mem_erase hn),
          h5 (fun n hn => (h.al n hn).low), fun hc => absurd h3 hc, fun hc => absurd h4 hc⟩
      | lookup pc =>
        obtain ⟨j1, j2, j3, j4, j5⟩ := h.toRel.lookup_rel pc
        exact ⟨_, rfl, j1, h.al, j2 h.bounds, by rw [j4]; exact h.hit, by rw [j5]; exact h.miss⟩
      | isIn pc => exact ⟨_, rfl, (h.isIn pc).1⟩
    obtain ⟨s1, h1, h2⟩ := h1
    obtain ⟨s', h3, h4⟩ := ih s1 _ h2 hok.2 (fun m hm => hal m (by simp [hm]))
    exact ⟨s', by rw [List.foldlM_cons, h1]; exact h3, h4⟩

/-- C32 for `is_in_module`: after any history in which the loaded modules consist of whole pages
other than page 0, the answer is exactly whether a loaded module contains the address. -/
theorem C32_is_in_module_partial (d : Bool) (ops : List Op) (hok : OkAll [] ops)
    (hal : ∀ m, Op.load m ∈ ops → m.Aligned) :
    ∃ s, ops.foldlM (step d) {} = some s ∧
      ∀ pc, (isInModule pc s).2 = true ↔ ∃ m ∈ ops.foldl loaded [], m.Has pc := by
  obtain ⟨s, h1, h⟩ := RelP.history d ops {} [] ⟨Rel.init, by simp, .inl ⟨rfl, rfl, rfl⟩,
    fun h => absurd rfl h, fun h => absurd rfl h⟩ hok hal
  exact ⟨s, h1, fun pc => (h.isIn pc).2⟩

/-- Without alignment the page-granular caches of `is_in_module` are wrong: a hit on a module that
ends in the middle of a page makes the rest of the page count as inside a module.  (A second module
further up keeps `modtree_max_end` from hiding the error.) -/
theorem C32_is_in_module_unaligned :
    let a : Mod := ⟨1, true, 0x10000, 0x10800, []⟩
    let b : Mod := ⟨2, true, 0x20000, 0x21000, []⟩
    let ops := [Op.load a, .load b, .isIn 0x10010]
    OkAll [] ops ∧ (∃ s, ops.foldlM (step true) {} = some s ∧ (isInModule 0x10900 s).2 = true) ∧
      ¬ ∃ m ∈ ops.foldl loaded [], m.Has 0x10900 := by
  refine ⟨⟨⟨⟨by decide, by decide, by decide, by decide, by decide⟩, by simp⟩,
    ⟨⟨by decide, by decide, by decide, by decide, by decide⟩, ?_⟩, trivial, trivial⟩,
    ⟨_, rfl, by decide⟩, ?_⟩
  · simp [loaded, Mod.Has]; omega
  · simp [loaded, Mod.Has]

/-- A module in page 0 is never found by `is_in_module`: `modtree_last_miss` starts out as `NULL`. -/
theorem C32_is_in_module_page0 :
    let a : Mod := ⟨1, true, 0, 0x1000, []⟩
    OkAll [] [Op.load a] ∧ (∃ s, [Op.load a].foldlM (step true) {} = some s ∧
      (isInModule 0x10 s).2 = false) ∧ a.Has 0x10 := by
  refine ⟨⟨⟨⟨by decide, by decide, by decide, by decide, by decide⟩, by simp⟩, trivial⟩,
    ⟨_, rfl, by decide⟩, by simp [Mod.Has]⟩

/-- A history with a module in three segments (two of them adjacent), an unload and a reload
elsewhere, with lookups in between that fill the caches. -/
example :
    let a : Mod := ⟨1, false, 0x10000, 0x20000,
      [(0x10000, 0x12000), (0x12000, 0x13000), (0x1f000, 0x20000)]⟩
    let a' : Mod := ⟨1, true, 0x50000, 0x60000, []⟩
    let b : Mod := ⟨2, true, 0x13000, 0x14000, []⟩
    let ops := [Op.load a, .lookup 0x12001, .load b, .lookup 0x13000, .lookup 0x1f004, .unload a,
      .load a', .isIn 0x14000, .isIn 0x13000]
    OkAll [] ops ∧ (∀ m, Op.load m ∈ ops → m.Aligned) ∧
      (∃ s, ops.foldlM (step true) {} = some s ∧
        (moduleLookup 0x12001 s).2 = none ∧ (moduleLookup 0x50001 s).2 = some (0x50000, 0x10000, 1)) ∧
      ∃ s, [Op.load a].foldlM (step true) {} = some s ∧
        (moduleLookup 0x12001 s).2 = some (0x10000, 0x3000, 1) := by
  refine ⟨⟨⟨⟨by decide, by decide, by decide, by decide, by decide⟩, by simp⟩, trivial,
    ⟨⟨by decide, by decide, by decide, by decide, by decide⟩, ?_⟩, trivial, trivial,
    by simp [Ok, loaded], ⟨⟨by decide, by decide, by decide, by decide, by decide⟩, ?_⟩, trivial,
    trivial, trivial⟩, ?_, ⟨_, rfl, by decide, by decide⟩, ⟨_, rfl, by decide⟩⟩
  · simp [loaded, Mod.Has]; omega
  · simp [loaded, Mod.Has]
    omega
  · intro m hm
    simp at hm
    rcases hm with rfl | rfl | rfl <;> exact ⟨by decide, by decide, by decide, by decide⟩

end Verif.Cs
