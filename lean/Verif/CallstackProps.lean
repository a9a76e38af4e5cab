import Verif.Callstack
import Verif.ModulesProps

/-! # C30 and C31: packed callstacks -/
namespace Verif.Cs
open Verif.RB Verif.Regions

/-! ## Specification -/

/-- What is to be known about an address: nothing if no module contains it, else the name of the
module that contains it and the distance from the start of the module's piece around it. -/
def Sees (L : List Mod) (pc : Nat) : Option (Nat × Nat) → Prop
  | none => ∀ m ∈ L, ¬ m.Has pc
  | some (path, o) => ∃ m ∈ L, m.path = path ∧ m.Has pc ∧ o ≤ pc ∧ ∃ n, o < n ∧ m.Piece (pc - o) n

/-- What is to be known about a list of addresses, where marked addresses outside all modules are
left out. -/
def SeesAll (L : List Mod) : List (Nat × Bool) → List (Nat × Option (Nat × Nat)) → Prop
  | [], fs => fs = []
  | (pc, skip) :: rest, fs => ∃ r fs', Sees L pc r ∧ SeesAll L rest fs' ∧
      fs = if r = none ∧ skip = true then fs' else (pc, r) :: fs'

/-- The size of a module. -/
def Mod.size (m : Mod) : Nat := m.stop - m.start

/-- The environment: the modules loaded now, and the size each path had when it was first loaded. -/
structure Env where
  now : List Mod := []
  first : List (Nat × Nat) := []

/-- The environment after an event. -/
def Env.next (E : Env) (op : Op) : Env :=
  { now := loaded E.now op
    first := match op with
      | .load m => if (E.first.lookup m.path).isSome then E.first else (m.path, m.size) :: E.first
      | _ => E.first }

/-- How many further 16M units a module of this size takes. -/
def units (size : Nat) : Nat := (size - 1) / 0xffffff

/-- The events that are allowed: those of C32, but a path is not loaded again with a size that
needs more 16M units than the first time. -/
def Env.Ok (E : Env) (op : Op) : Prop :=
  Cs.Ok E.now op ∧
    match op with
    | .load m => ∀ z, E.first.lookup m.path = some z → units m.size ≤ units z
    | _ => True

/-- A whole history is allowed. -/
def Env.OkAll : Env → List Op → Prop
  | _, [] => True
  | E, op :: ops => E.Ok op ∧ Env.OkAll (E.next op) ops

/-- The static variables of the module tree and of the module names. -/
structure Sys where
  tr : Tr := {}
  names : Names := {}

/-- The code run on an event (common/callstack.c:2849-2972). -/
def Sys.step (d : Bool) (S : Sys) (op : Op) : Option Sys :=
  (Cs.step d S.tr op).map fun t =>
    { tr := t
      names := match op with
        | .load m => addNewModule m S.names
        | _ => S.names }

/-- The offset can be given back: it is not a multiple of 2^24 - 1 and not too large for a signed
integer computation. -/
def Fits (o : Nat) : Prop := (o = 0 ∨ o % 0xffffff ≠ 0) ∧ o ≤ 129 * 0xffffff

/-- All offsets can be given back. -/
def FitsAll (fs : List (Nat × Option (Nat × Nat))) : Prop :=
  ∀ f ∈ fs, ∀ path o, f.2 = some (path, o) → Fits o

/-- The stack is in packed form. -/
def Pcs.isPacked (p : Pcs) : Bool := match p.frames with | .packed _ => true | .full _ => false

/-- The name and the offset to be delivered. -/
def plain : Option (Nat × Nat) → Dec
  | some (path, o) => .mod (some path) o
  | none => .mod none 0

/-- The answers of the decoding functions for a recorded stack: location, name and offset. -/
def expected (sys : Option Nat) (fs : List (Nat × Option (Nat × Nat))) : List (Loc × Option Dec) :=
  (match sys with | some x => [(Loc.sys x, some Dec.sys)] | none => []) ++
  fs.map fun f => (Loc.addr f.1, some (plain f.2))

/-- What decoding a frame delivers in truth.  In packed form a positive multiple of 2^24 - 1 is taken
for the mark "in no module", and an offset above 129 * (2^24 - 1) leads to a signed overflow. -/
def answer (packed : Bool) : Option (Nat × Nat) → Option Dec
  | none => some (.mod none 0)
  | some (path, o) =>
    if packed then
      if 0 < o ∧ o % 0xffffff = 0 then some (.mod none 0)
      else if 129 * 0xffffff < o then none
      else some (.mod (some path) o)
    else some (.mod (some path) o)

/-- What decoding a whole stack delivers in truth. -/
def answers (packed : Bool) (sys : Option Nat) (fs : List (Nat × Option (Nat × Nat))) :
    List (Loc × Option Dec) :=
  (match sys with | some x => [(Loc.sys x, some Dec.sys)] | none => []) ++
  fs.map fun f => (Loc.addr f.1, answer packed f.2)

theorem answer_full (r : Option (Nat × Nat)) : answer false r = some (plain r) := by
  rcases r with _ | ⟨path, o⟩ <;> rfl

theorem answer_fits {r : Option (Nat × Nat)} (h : ∀ path o, r = some (path, o) → Fits o) :
    answer true r = some (plain r) := by
  rcases r with _ | ⟨path, o⟩
  · rfl
  · obtain ⟨h1, h2⟩ := h path o rfl
    unfold answer plain
    simp only [if_true]
    rw [if_neg (by omega), if_neg (by omega)]

theorem answers_eq {packed : Bool} {sys : Option Nat} {fs : List (Nat × Option (Nat × Nat))}
    (h : packed = true → FitsAll fs) : answers packed sys fs = expected sys fs := by
  unfold answers expected
  congr 1
  refine List.map_congr_left fun f hf => ?_
  cases packed with
  | false => rw [answer_full]
  | true => rw [answer_fits (h rfl f hf)]

/-! ## The name array -/

theorem fill_spec : ∀ (path sz : Nat) (arr : Nat → Option Nat) (last : Nat), last ≤ 255 →
    let r := fill path sz arr last
    last ≤ r.2.1 ∧ r.2.1 ≤ 255 ∧ (∀ i < last, r.1 i = arr i) ∧
    (r.2.2 = true → r.2.1 = 255) ∧
    (r.2.2 = false → r.2.1 = last + units sz + 1 ∧ ∀ j ≤ units sz, r.1 (last + j) = some path) := by
  intro path sz arr last hl
  fun_induction fill path sz arr last with
  | case1 sz arr last h =>
    unfold maxNames at h
    exact ⟨Nat.le_refl _, hl, fun _ _ => rfl, fun _ => by simp only; omega, fun h => by cases h⟩
  | case2 sz arr last h arr' hsz =>
    unfold maxNames at h
    unfold maxOffs at hsz
    have hu : units sz = 0 := by unfold units; omega
    refine ⟨by simp only; omega, by simp only; omega, ?_, (fun h => by cases h),
      fun _ => ⟨by simp only; omega, ?_⟩⟩
    · intro i hi; simp only [arr']; rw [dif_neg (by omega)]
    · intro j hj
      have : j = 0 := by omega
      subst this; simp [arr']
  | case3 sz arr last h arr' hsz ih =>
    unfold maxNames at h
    unfold maxOffs at hsz ih ⊢
    have hu : units sz = units (sz - 0xffffff) + 1 := by unfold units; omega
    obtain ⟨i1, i2, i3, i4, i5⟩ := ih (by omega)
    refine ⟨by omega, i2, ?_, i4, fun hf => ?_⟩
    · intro i hi
      rw [i3 i (by omega)]
      simp only [arr']; rw [dif_neg (by omega)]
    · obtain ⟨j1, j2⟩ := i5 hf
      refine ⟨by omega, fun j hj => ?_⟩
      by_cases hj0 : j = 0
      · subst hj0
        rw [i3 (last + 0) (by omega)]; simp [arr']
      · have := j2 (j - 1) (by omega)
        rw [show last + 1 + (j - 1) = last + j by omega] at this
        exact this

theorem split_spec : ∀ (sz k : Nat), k + units sz < 255 →
    Cs.split sz (k : Int) = (sz - units sz * 0xffffff, ((k + units sz : Nat) : Int)) := by
  intro sz
  induction sz using Nat.strongRecOn with
  | ind sz ih =>
    intro k hk
    unfold Cs.split maxOffs maxNames
    split
    · rename_i hgt
      have hu : units sz = units (sz - 0xffffff) + 1 := by unfold units; omega
      rw [if_neg (by omega)]
      have := ih (sz - 0xffffff) (by omega) (k + 1) (by omega)
      rw [show ((k : Int) + 1) = ((k + 1 : Nat) : Int) by omega, this]
      rw [Prod.mk.injEq]
      constructor
      · omega
      · omega
    · rename_i hgt
      have hu : units sz = 0 := by unfold units; omega
      simp [hu]

/-- What holds of the name table and array. -/
structure NInv (n : Names) (F : List (Nat × Nat)) : Prop where
  lo : 1 ≤ n.last
  hi : n.last ≤ 255
  keys : ∀ p, (n.tbl.lookup p).isSome = (F.lookup p).isSome
  idx : ∀ p i z, n.tbl.lookup p = some i → F.lookup p = some z →
    (i = -1 ∧ n.last = 255) ∨
    ∃ k : Nat, i = k ∧ 1 ≤ k ∧ k + units z < n.last ∧ ∀ j ≤ units z, n.arr (k + j) = some p

/-- Entries once made stay. -/
structure Ext (n n' : Names) : Prop where
  last : n.last ≤ n'.last
  arr : ∀ i < n.last, n'.arr i = n.arr i
  tbl : ∀ p i, n.tbl.lookup p = some i → n'.tbl.lookup p = some i

theorem Ext.refl (n : Names) : Ext n n := ⟨Nat.le_refl _, fun _ _ => rfl, fun _ _ h => h⟩

theorem Ext.trans {a b c : Names} (h : Ext a b) (g : Ext b c) : Ext a c :=
  ⟨Nat.le_trans h.last g.last,
    fun i hi => (g.arr i (Nat.lt_of_lt_of_le hi h.last)).trans (h.arr i hi),
    fun p i hp => g.tbl p i (h.tbl p i hp)⟩

theorem lookup_cons_ne {β : Type} {p q : Nat} {b : β} {l : List (Nat × β)} (h : p ≠ q) :
    ((q, b) :: l).lookup p = l.lookup p := by
  rw [List.lookup_cons, beq_false_of_ne h]

theorem lookup_cons_eq {β : Type} {p : Nat} {b : β} {l : List (Nat × β)} :
    ((p, b) :: l).lookup p = some b := by
  rw [List.lookup_cons, beq_self_eq_true]

/-- `add_new_module` keeps the invariant and all old entries. -/
theorem NInv.add {n : Names} {F : List (Nat × Nat)} (h : NInv n F) (m : Mod) (hm : m.WF) :
    NInv (addNewModule m n) (if (F.lookup m.path).isSome then F else (m.path, m.size) :: F) ∧
    Ext n (addNewModule m n) := by
  unfold addNewModule
  have hk := h.keys m.path
  cases ht : n.tbl.lookup m.path with
  | some i =>
    rw [ht] at hk
    simp only [Option.isSome_some] at hk
    rw [if_pos hk.symm]
    exact ⟨h, Ext.refl n⟩
  | none =>
    rw [ht] at hk
    simp only [Option.isSome_none] at hk
    rw [if_neg (by rw [← hk]; decide)]
    have hsz : sub64 m.stop m.start = m.size := sub64_eq (Nat.le_of_lt hm.lt) hm.top
    rw [hsz]
    have hf := fill_spec m.path m.size n.arr n.last h.hi
    generalize fill m.path m.size n.arr n.last = r at hf
    obtain ⟨f1, f2, f3, f4, f5⟩ := hf
    have hF : F.lookup m.path = none := by
      cases hh : F.lookup m.path with
      | none => rfl
      | some z => rw [hh] at hk; cases hk
    refine ⟨⟨?_, f2, ?_, ?_⟩, ⟨f1, f3, ?_⟩⟩
    · have := h.lo; simp only; omega
    · intro p
      by_cases hp : p = m.path
      · subst hp; rw [lookup_cons_eq, lookup_cons_eq]; rfl
      · rw [lookup_cons_ne hp, lookup_cons_ne hp]; exact h.keys p
    · intro p i z hi hz
      by_cases hp : p = m.path
      · subst hp
        rw [lookup_cons_eq] at hi hz
        obtain rfl := Option.some.inj hi
        obtain rfl := Option.some.inj hz
        cases hb : r.2.2 with
        | true => left; exact ⟨by simp, f4 hb⟩
        | false =>
          obtain ⟨g1, g2⟩ := f5 hb
          right
          refine ⟨n.last, by simp, h.lo, ?_, g2⟩
          simp only; omega
      · rw [lookup_cons_ne hp] at hi hz
        rcases h.idx p i z hi hz with ⟨a, b⟩ | ⟨k, a, b, c, e⟩
        · left; exact ⟨a, by simp only; omega⟩
        · right
          refine ⟨k, a, b, by simp only; omega, fun j hj => ?_⟩
          simp only
          rw [f3 _ (by omega)]
          exact e j hj
    · intro p i hi
      by_cases hp : p = m.path
      · subst hp; rw [ht] at hi; cases hi
      · rw [lookup_cons_ne hp]; exact hi

/-! ## Histories -/

/-- What every history maintains. -/
structure SInv (S : Sys) (E : Env) : Prop where
  rel : Rel S.tr E.now
  names : NInv S.names E.first
  fst : ∀ m ∈ E.now, ∃ z, E.first.lookup m.path = some z ∧ units m.size ≤ units z

theorem SInv.init : SInv {} {} :=
  ⟨Rel.init, ⟨by decide, by decide, by simp, by simp⟩, by simp⟩

theorem SInv.step (d : Bool) {S : Sys} {E : Env} (h : SInv S E) (op : Op) (hok : E.Ok op) :
    ∃ S', S.step d op = some S' ∧ SInv S' (E.next op) ∧ Ext S.names S'.names := by
  obtain ⟨t, h1, h2⟩ := h.rel.step d op hok.1
  refine ⟨_, by unfold Sys.step; rw [h1]; rfl, ?_⟩
  cases op with
  | load m =>
    obtain ⟨g1, g2⟩ := h.names.add m hok.1.1
    refine ⟨⟨h2, g1, ?_⟩, g2⟩
    intro k hk
    unfold Env.next
    simp only
    rcases List.mem_cons.1 hk with hk' | hk'
    · rw [hk']
      cases hz : E.first.lookup m.path with
      | some z =>
        simp only [Option.isSome_some, if_true]
        exact ⟨z, hz, hok.2 z hz⟩
      | none =>
        simp only [Option.isSome_none, Bool.false_eq_true, if_false]
        exact ⟨m.size, lookup_cons_eq, Nat.le_refl _⟩
    · obtain ⟨z, hz, hle⟩ := h.fst k hk'
      refine ⟨z, ?_, hle⟩
      split
      · exact hz
      · rename_i hn
        by_cases hp : k.path = m.path
        · rw [← hp, hz] at hn; exact absurd rfl hn
        · rw [lookup_cons_ne hp]; exact hz
  | unload m =>
    exact ⟨⟨h2, h.names, fun k hk => h.fst k (List.mem_of_mem_erase hk)⟩, Ext.refl _⟩
  | lookup pc => exact ⟨⟨h2, h.names, h.fst⟩, Ext.refl _⟩
  | isIn pc => exact ⟨⟨h2, h.names, h.fst⟩, Ext.refl _⟩

theorem SInv.history (d : Bool) : ∀ (ops : List Op) (S : Sys) (E : Env), SInv S E → E.OkAll ops →
    ∃ S', ops.foldlM (Sys.step d) S = some S' ∧ SInv S' (ops.foldl Env.next E) ∧
      Ext S.names S'.names := by
  intro ops
  induction ops with
  | nil => intro S E h _; exact ⟨S, rfl, h, Ext.refl _⟩
  | cons op ops ih =>
    intro S E h hok
    obtain ⟨S1, h1, h2, h3⟩ := h.step d op hok.1
    obtain ⟨S', g1, g2, g3⟩ := ih S1 _ h2 hok.2
    exact ⟨S', by rw [List.foldlM_cons, h1]; exact g1, g2, h3.trans g3⟩

/-! ## Recording -/

/-- The addresses come with the start of the region and the name; the offset is the difference. -/
def toSeen (f : Nat × Option (Nat × Nat)) : Nat × Option (Nat × Nat) :=
  (f.1, f.2.map fun q => (q.2, f.1 - q.1))

/-- A frame handed on by the walk under these modules. -/
def FrameOk (L : List Mod) (f : Nat × Option (Nat × Nat)) : Prop :=
  ∀ start path, f.2 = some (start, path) → start ≤ f.1 ∧ f.1 < W ∧
    ∃ m ∈ L, m.path = path ∧ f.1 - start < m.size

theorem walk_spec {L : List Mod} : ∀ (pcs : List (Nat × Bool)) (s : Tr), Rel s L →
    Rel (walk pcs s).1 L ∧ SeesAll L pcs ((walk pcs s).2.map toSeen) ∧
    ∀ f ∈ (walk pcs s).2, FrameOk L f := by
  intro pcs
  induction pcs with
  | nil => intro s h; exact ⟨h, rfl, by simp [walk]⟩
  | cons a rest ih =>
    obtain ⟨pc, skip⟩ := a
    intro s h
    obtain ⟨h1, -, -, -, -⟩ := h.lookup_rel pc
    obtain ⟨i1, i2, i3⟩ := ih _ h1
    have hq := h.lookup_eq pc
    unfold walk
    simp only
    cases hin : inNode pc s.tree with
    | none =>
      rw [hin] at hq
      rw [hq]
      simp only [Option.map_none]
      have hn : Sees L pc none := by
        intro m hm hh
        obtain ⟨e, he, hc⟩ := (h.covers pc).2 ⟨m, hm, hh⟩
        exact (C15_in_node_none pc h.valid).1 hin e he hc
      refine ⟨i1, ⟨none, _, hn, i2, ?_⟩, ?_⟩
      · cases skip <;> simp [toSeen]
      · intro f hf
        cases skip with
        | true => exact i3 f (by simpa using hf)
        | false =>
          simp only [Bool.false_eq_true, if_false] at hf
          rcases List.mem_cons.1 hf with hf' | hf'
          · subst hf'; intro _ _ hx; cases hx
          · exact i3 f hf'
    | some e =>
      rw [hin] at hq
      rw [hq]
      simp only [Option.map_some]
      obtain ⟨he, hc⟩ := (C15_in_node pc e h.valid).1 hin
      obtain ⟨m, hm, hp, hpc, hb, ht⟩ := h.piece he
      have htop := (h.wf m hm).top
      have hc1 := hc.1
      have hc2 := hc.2
      have hsz : pc - e.base < m.size := by unfold Mod.size; omega
      refine ⟨i1, ⟨some (e.client, pc - e.base), _, ?_, i2, ?_⟩, ?_⟩
      · refine ⟨m, hm, hp.symm, hpc.2.1 pc hc1 hc2, Nat.sub_le _ _, e.size, by omega, ?_⟩
        rw [Nat.sub_sub_self hc1]; exact hpc
      · simp [toSeen]
      · intro f hf
        rcases List.mem_cons.1 hf with hf' | hf'
        · subst hf'
          intro start path hx
          simp only [Option.some.injEq, Prod.mk.injEq] at hx
          obtain ⟨rfl, rfl⟩ := hx
          exact ⟨hc1, by simp only; omega, m, hm, hp.symm, hsz⟩
        · exact i3 f hf'

/-- The packed frame of an address in a module. -/
theorem packFrame_spec {S : Sys} {E : Env} (h : SInv S E) (hl : S.names.last < 255)
    {pc start path : Nat} (hf : FrameOk E.now (pc, some (start, path))) :
    ∃ k : Nat, 1 ≤ k ∧ S.names.tbl.lookup path = some (k : Int) ∧
      k + units (pc - start) < S.names.last ∧
      S.names.arr (k + units (pc - start)) = some path ∧
      packFrame S.names pc (some (start, path)) =
        ⟨.addr pc, (pc - start) - units (pc - start) * 0xffffff, k + units (pc - start)⟩ := by
  obtain ⟨h1, h2, m, hm, hmp, hsz⟩ := hf start path rfl
  simp only at h1 h2 hsz
  obtain ⟨z, hz, hle⟩ := h.fst m hm
  rw [hmp] at hz
  have hk := h.names.keys path
  rw [hz] at hk
  obtain ⟨i, hi⟩ := Option.isSome_iff_exists.1 hk
  rcases h.names.idx path i z hi hz with ⟨-, hbad⟩ | ⟨k, rfl, hk1, hk2, hk3⟩
  · omega
  have hu : units (pc - start) ≤ units m.size := by unfold units; omega
  refine ⟨k, hk1, hi, by omega, hk3 _ (by omega), ?_⟩
  unfold packFrame
  simp only
  rw [hi, sub64_eq h1 h2]
  simp only [Option.getD_some]
  rw [split_spec _ _ (by omega)]
  simp only
  have hlo : (pc - start) - units (pc - start) * 0xffffff < 2 ^ 24 := by unfold units; omega
  rw [Nat.mod_eq_of_lt hlo]
  congr 1
  rw [show ((k + units (pc - start) : Nat) : Int) % 256 =
    (((k + units (pc - start)) % 256 : Nat) : Int) by omega, Int.toNat_natCast]
  omega

/-- Decoding a packed frame later on. -/
theorem decPacked_spec {S : Sys} {E : Env} (h : SInv S E) (hl : S.names.last < 255) {n' : Names}
    (hext : Ext S.names n') {f : Nat × Option (Nat × Nat)} (hf : FrameOk E.now f) :
    decPacked n' (packFrame S.names f.1 f.2) = answer true (toSeen f).2 := by
  obtain ⟨pc, r⟩ := f
  cases r with
  | none => simp [packFrame, decPacked, toSeen, maxNames, answer]
  | some q =>
    obtain ⟨start, path⟩ := q
    obtain ⟨k, hk1, htbl, hlt, harr, heq⟩ := packFrame_spec h hl hf
    simp only [heq, toSeen, Option.map_some, answer, if_true]
    generalize pc - start = o at *
    unfold decPacked
    rw [if_neg (by simp only; omega)]
    by_cases f1 : 0 < o ∧ o % 0xffffff = 0
    · rw [if_pos f1, if_neg (by unfold maxOffs units; simp only; omega)]
    rw [if_neg f1, if_pos (by unfold maxOffs units; simp only; omega)]
    simp only
    rw [hext.arr _ hlt, harr, Option.bind_some, hext.tbl _ _ htbl, Option.bind_some]
    have hmul : ((((k + units o : Nat)) : Int) - (k : Int)) * (maxOffs : Int) =
        ((units o * 0xffffff : Nat) : Int) := by
      rw [Int.natCast_mul]; congr 1; omega
    rw [hmul]
    split
    · by_cases f2 : 129 * 0xffffff < o
      · rw [if_pos f2, if_neg (by unfold units; omega)]
      · rw [if_neg f2, if_pos (by unfold units; omega), Int.toNat_natCast]
        congr 2; unfold units; omega
    · have hu : units o = 0 := by omega
      rw [hu, Nat.zero_mul, Nat.sub_zero, if_neg (by unfold units at hu; omega)]

theorem decFull_spec {L : List Mod} {f : Nat × Option (Nat × Nat)} (hf : FrameOk L f) :
    decFull (fullFrame f.1 f.2) = answer false (toSeen f).2 := by
  obtain ⟨pc, r⟩ := f
  cases r with
  | none => rfl
  | some q =>
    obtain ⟨start, path⟩ := q
    obtain ⟨h1, h2, -⟩ := hf start path rfl
    simp [fullFrame, decFull, toSeen, sub64_eq h1 h2, answer]

theorem nonNull_getD {α : Type} (l : List α) : (nonNull l).getD [] = l := by
  unfold nonNull
  cases l <;> simp

/-- A recorded stack. -/
structure Recorded (S : Sys) (E : Env) (junk : Nat) (sys : Option Nat)
    (fs : List (Nat × Option (Nat × Nat))) (p : Pcs) : Prop where
  inv : SInv S E
  ok : ∀ f ∈ fs, FrameOk E.now f
  shape : p = if S.names.last < 255 then
      ⟨.packed (nonNull ((sys.toList.map fun x => ⟨.sys x, junk, 0⟩) ++
        fs.map fun f => packFrame S.names f.1 f.2)), sys.isSome⟩
    else
      ⟨.full (nonNull ((sys.toList.map fun x => ⟨.sys x, junk, .sys⟩) ++
        fs.map fun f => fullFrame f.1 f.2)), sys.isSome⟩

theorem record_spec {S : Sys} {E : Env} (h : SInv S E) (junk : Nat) (sys : Option Nat)
    (pcs : List (Nat × Bool)) : ∃ fs, SeesAll E.now pcs (fs.map toSeen) ∧
      SInv { S with tr := (record junk sys pcs S.names S.tr).1 } E ∧
      Recorded S E junk sys fs (record junk sys pcs S.names S.tr).2 := by
  obtain ⟨h1, h2, h3⟩ := walk_spec pcs S.tr h.rel
  refine ⟨(walk pcs S.tr).2, h2, ⟨?_, h.names, h.fst⟩, h, h3, ?_⟩
  · unfold record
    simp only
    split <;> split <;> exact h1
  · unfold record maxNames
    simp only
    split <;> split <;> simp

theorem Recorded.packed {S : Sys} {E : Env} {junk : Nat} {sys : Option Nat}
    {fs : List (Nat × Option (Nat × Nat))} {p : Pcs} (h : Recorded S E junk sys fs p) :
    p.isPacked = true ↔ S.names.last < 255 := by
  rw [h.shape]
  split <;> simp [Pcs.isPacked, *]

theorem Recorded.decode {S : Sys} {E : Env} {junk : Nat} {sys : Option Nat}
    {fs : List (Nat × Option (Nat × Nat))} {p : Pcs} (h : Recorded S E junk sys fs p)
    {n' : Names} (hext : Ext S.names n') :
    decode n' p = answers p.isPacked sys (fs.map toSeen) := by
  rw [h.shape]
  unfold answers
  split
  · rename_i hl
    unfold Cs.decode
    simp only [nonNull_getD, List.map_append, List.map_map]
    congr 1
    · cases sys <;> simp [decPacked]
    · refine List.map_congr_left fun f hf => ?_
      simp only [Function.comp]
      rw [decPacked_spec h.inv hl hext (h.ok f hf)]
      congr 1
      unfold packFrame
      cases f.2 <;> rfl
  · unfold Cs.decode
    simp only [nonNull_getD, List.map_append, List.map_map]
    congr 1
    · cases sys <;> simp [decFull]
    · refine List.map_congr_left fun f hf => ?_
      simp only [Function.comp]
      rw [decFull_spec (h.ok f hf)]
      congr 1
      unfold fullFrame
      cases f.2 <;> rfl

/-! ## C30 -/

theorem OkAll_append {E : Env} {l m : List Op} (h : E.OkAll (l ++ m)) :
    E.OkAll l ∧ (l.foldl Env.next E).OkAll m := by
  induction l generalizing E with
  | nil => exact ⟨trivial, h⟩
  | cons a l ih => exact ⟨⟨h.1, (ih h.2).1⟩, (ih h.2).2⟩

theorem now_foldl (l : List Op) (E : Env) : (l.foldl Env.next E).now = l.foldl loaded E.now := by
  induction l generalizing E with
  | nil => rfl
  | cons a l ih => exact ih _

/-- What decoding delivers, for all histories and all offsets. -/
theorem C30_exact (d : Bool) (before after : List Op) (junk : Nat) (sys : Option Nat)
    (pcs : List (Nat × Bool)) (hok : Env.OkAll {} (before ++ after)) :
    ∃ S fs S', before.foldlM (Sys.step d) {} = some S ∧
      SeesAll (before.foldl loaded []) pcs fs ∧
      after.foldlM (Sys.step d) { S with tr := (record junk sys pcs S.names S.tr).1 } = some S' ∧
      decode S'.names (record junk sys pcs S.names S.tr).2 =
        answers (record junk sys pcs S.names S.tr).2.isPacked sys fs := by
  obtain ⟨hok1, hok2⟩ := OkAll_append hok
  obtain ⟨S, h1, h2, -⟩ := SInv.history d before {} {} SInv.init hok1
  obtain ⟨fs, g1, g2, g3⟩ := record_spec h2 junk sys pcs
  obtain ⟨S', k1, -, k3⟩ := SInv.history d after _ _ g2 hok2
  refine ⟨S, fs.map toSeen, S', h1, ?_, k1, g3.decode k3⟩
  rw [now_foldl] at g1
  exact g1

/-- C30, partial: a callstack is recorded after any history of module loads, unloads and lookups
and decoded after any further history.  Decoding delivers for every frame the recorded address, the
module that contained the address when it was recorded and the offset therein.  Missing: for
packed frames the offset must not be a positive multiple of 2^24 - 1 and not exceed
129 * (2^24 - 1); a path must not be loaded again with a larger size than the first time
(`Env.Ok`).  `C30_exact` (with `C30_multiple` and `C30_huge`) and `C30_reload` show that all this
is necessary. -/
theorem C30_decode_partial (d : Bool) (before after : List Op) (junk : Nat) (sys : Option Nat)
    (pcs : List (Nat × Bool)) (hok : Env.OkAll {} (before ++ after)) :
    ∃ S fs S', before.foldlM (Sys.step d) {} = some S ∧
      SeesAll (before.foldl loaded []) pcs fs ∧
      after.foldlM (Sys.step d) { S with tr := (record junk sys pcs S.names S.tr).1 } = some S' ∧
      (((record junk sys pcs S.names S.tr).2.isPacked = true → FitsAll fs) →
        decode S'.names (record junk sys pcs S.names S.tr).2 = expected sys fs) := by
  obtain ⟨S, fs, S', h1, h2, h3, h4⟩ := C30_exact d before after junk sys pcs hok
  exact ⟨S, fs, S', h1, h2, h3, fun hfit => by rw [h4, answers_eq hfit]⟩

/-- What is to be known about an address is unique. -/
theorem C30_sees_unique {L : List Mod} (hd : L.Pairwise fun m n => ∀ a, m.Has a → ¬ n.Has a)
    {pc : Nat} {r q : Option (Nat × Nat)} (hr : Sees L pc r) (hq : Sees L pc q) : r = q := by
  rcases r with _ | ⟨p1, o1⟩ <;> rcases q with _ | ⟨p2, o2⟩
  · rfl
  · obtain ⟨m, hm, -, hh, -⟩ := hq
    exact absurd hh (hr m hm)
  · obtain ⟨m, hm, -, hh, -⟩ := hr
    exact absurd hh (hq m hm)
  · obtain ⟨m1, hm1, rfl, hh1, ho1, n1, hn1, -, a1, b1, c1⟩ := hr
    obtain ⟨m2, hm2, rfl, hh2, ho2, n2, hn2, -, a2, b2, c2⟩ := hq
    have hmm : m1 = m2 := by
      by_contra hne
      rcases pairwise_sym hd m1 hm1 m2 hm2 hne with h | h
      · exact h pc hh1 hh2
      · exact h pc hh2 hh1
    subst hmm
    have : o1 = o2 := by
      rcases Nat.lt_trichotomy o1 o2 with h | h | h
      · exact absurd (a2 (pc - o1 - 1) (by omega) (by omega)) (c1 (by omega))
      · exact h
      · exact absurd (a1 (pc - o2 - 1) (by omega) (by omega)) (c2 (by omega))
    rw [this]

/-- An address at a positive multiple of 2^24 - 1 in a module is decoded as lying in no module. -/
theorem C30_multiple (path k : Nat) (hk : 0 < k) :
    answer true (some (path, k * 0xffffff)) = some (.mod none 0) := by
  unfold answer
  simp only [if_true]
  rw [if_pos ⟨by omega, Nat.mul_mod_left _ _⟩]

/-- Decoding an offset beyond 129 * (2^24 - 1), about 2 GB, overflows a signed integer. -/
theorem C30_huge (path o : Nat) (h1 : 129 * 0xffffff < o) (h2 : o % 0xffffff ≠ 0) :
    answer true (some (path, o)) = none := by
  unfold answer
  simp only [if_true]
  rw [if_neg (by omega), if_pos h1]

/-- A module of 32 MB: the frame at offset 2^24 - 1 loses its module, the next one does not. -/
example :
    let m : Mod := ⟨1, true, 0x10000, 0x2010000, []⟩
    ((loadTree true m {}).map fun t => decode (addNewModule m {}) (record 0 none
      [(0x10000 + 0xffffff, false), (0x10000 + 0x1000000, false)] (addNewModule m {}) t).2) =
    some [(.addr (0x10000 + 0xffffff), some (.mod none 0)),
      (.addr (0x10000 + 0x1000000), some (.mod (some 1) 0x1000000))] := by
  decide +kernel

/-- The hypotheses are met: a history with two modules, one of them unloaded afterwards. -/
example : Env.OkAll {} ([.load ⟨1, true, 0x10000, 0x2010000, []⟩,
    .load ⟨2, false, 0x4000000, 0x4009000, [(0x4000000, 0x4001000), (0x4008000, 0x4009000)]⟩] ++
    [.unload ⟨1, true, 0x10000, 0x2010000, []⟩]) := by
  refine ⟨⟨⟨⟨by decide, by decide, by decide, by decide, by decide⟩, by simp⟩, by simp⟩,
    ⟨⟨⟨by decide, by decide, by decide, by decide, by decide⟩, ?_⟩, ?_⟩, ⟨?_, trivial⟩, trivial⟩
  · intro n hn a ha
    simp [Env.next, loaded] at hn
    subst hn
    simp [Mod.Has] at *
    omega
  · intro z hz
    simp [Env.next, List.lookup] at hz
  · simp [Env.next, loaded, Cs.Ok]

/-- Both frames of that history are decoded as expected, also the one in the module unloaded
afterwards. -/
example : FitsAll [(0x11234, some (1, 0x1234)), (0x4008010, some (2, 0x10)), (7, none)] := by
  intro f hf path o ho
  simp at hf
  rcases hf with rfl | rfl | rfl <;> simp at ho <;> obtain ⟨-, rfl⟩ := ho <;>
    exact ⟨by decide, by decide⟩

/-- A path that is loaded again with a larger size has too few entries: a frame in its second 16M
is decoded as lying in the module registered next. -/
theorem C30_reload :
    let a : Mod := ⟨1, true, 0x10000, 0x20000, []⟩
    let b : Mod := ⟨2, true, 0x20000, 0x30000, []⟩
    let a' : Mod := ⟨1, true, 0x1000000, 0x3000000, []⟩
    ([Op.load a, .load b, .unload a, .load a'].foldlM (Sys.step true) {}).map
      (fun S => decode S.names (record 0 none [(0x2000000, false)] S.names S.tr).2) =
    some [(.addr 0x2000000, some (.mod (some 2) 1))] := by
  decide +kernel

/-! ## C31: comparison -/

theorem map_eq_map_iff {α β γ : Type} {f f' : α → β} {g g' : α → γ} : ∀ {l m : List α},
    (∀ a ∈ l, ∀ b ∈ m, f a = f' b ↔ g a = g' b) → (l.map f = m.map f' ↔ l.map g = m.map g') := by
  intro l
  induction l with
  | nil => intro m _; cases m <;> simp
  | cons a l ih =>
    intro m h
    cases m with
    | nil => simp
    | cons b m =>
      simp only [List.map_cons, List.cons.injEq]
      rw [h a (by simp) b (by simp), ih fun x hx y hy => h x (by simp [hx]) y (by simp [hy])]

/-- Packed frames are equal iff the frames are. -/
theorem packFrame_inj {S T : Sys} {E F : Env} (hS : SInv S E) (hT : SInv T F)
    (lS : S.names.last < 255) (lT : T.names.last < 255) {n : Names} (eS : Ext S.names n)
    (eT : Ext T.names n) {f g : Nat × Option (Nat × Nat)} (hf : FrameOk E.now f)
    (hg : FrameOk F.now g) :
    packFrame S.names f.1 f.2 = packFrame T.names g.1 g.2 ↔ toSeen f = toSeen g := by
  obtain ⟨pc, r⟩ := f
  obtain ⟨pd, q⟩ := g
  rcases r with _ | ⟨s1, p1⟩ <;> rcases q with _ | ⟨s2, p2⟩
  · simp [packFrame, toSeen]
  · obtain ⟨k, -, -, hlt, -, heq⟩ := packFrame_spec hT lT hg
    simp only [heq]
    simp only [packFrame, toSeen, Option.map_none, Option.map_some, Prod.mk.injEq, reduceCtorEq,
      and_false, iff_false, PFrame.mk.injEq, maxNames]
    omega
  · obtain ⟨k, -, -, hlt, -, heq⟩ := packFrame_spec hS lS hf
    simp only [heq]
    simp only [packFrame, toSeen, Option.map_none, Option.map_some, Prod.mk.injEq, reduceCtorEq,
      and_false, iff_false, PFrame.mk.injEq, maxNames]
    omega
  · obtain ⟨k1, -, t1, lt1, a1, heq1⟩ := packFrame_spec hS lS hf
    obtain ⟨k2, -, t2, lt2, a2, heq2⟩ := packFrame_spec hT lT hg
    simp only [heq1, heq2]
    simp only [toSeen, Option.map_some, Prod.mk.injEq, Option.some.injEq, PFrame.mk.injEq,
      Loc.addr.injEq]
    have t1' := eS.tbl _ _ t1
    have t2' := eT.tbl _ _ t2
    rw [← eS.arr _ lt1] at a1
    rw [← eT.arr _ lt2] at a2
    have hk : p1 = p2 → k1 = k2 := by
      rintro rfl
      rw [t1'] at t2'
      have := Option.some.inj t2'
      omega
    constructor
    · rintro ⟨h1, h2, h3⟩
      have hp : p1 = p2 := by
        rw [h3, a2] at a1
        exact (Option.some.inj a1).symm
      have := hk hp
      refine ⟨h1, hp, ?_⟩
      clear a1 a2 t1 t2 t1' t2' heq1 heq2 hk
      unfold units at h2 h3
      omega
    · rintro ⟨rfl, hp, h3⟩
      have := hk hp
      rw [h3]
      exact ⟨rfl, rfl, by omega⟩

theorem fullFrame_inj {L M : List Mod} {f g : Nat × Option (Nat × Nat)} (hf : FrameOk L f)
    (hg : FrameOk M g) : fullFrame f.1 f.2 = fullFrame g.1 g.2 ↔ toSeen f = toSeen g := by
  obtain ⟨pc, r⟩ := f
  obtain ⟨pd, q⟩ := g
  rcases r with _ | ⟨s1, p1⟩ <;> rcases q with _ | ⟨s2, p2⟩
  · simp [fullFrame, toSeen]
  · simp [fullFrame, toSeen]
  · simp [fullFrame, toSeen]
  · obtain ⟨h1, h2, -⟩ := hf s1 p1 rfl
    obtain ⟨h3, h4, -⟩ := hg s2 p2 rfl
    simp only at h1 h2 h3 h4
    simp only [fullFrame, toSeen, Option.map_some, Prod.mk.injEq, Option.some.injEq,
      FFrame.mk.injEq, Loc.addr.injEq, MName.mod.injEq, sub64_eq h1 h2, sub64_eq h3 h4]
    constructor
    · rintro ⟨a, b, c⟩; exact ⟨a, c, b⟩
    · rintro ⟨a, b, c⟩; exact ⟨a, c, b⟩

theorem cmpFrame_eq {a b : Loc × Option Dec} (ha : a.2.isSome) (hb : b.2.isSome) :
    cmpFrame a b = some (decide (a = b)) := by
  obtain ⟨l1, d1⟩ := a
  obtain ⟨l2, d2⟩ := b
  obtain ⟨x, rfl⟩ := Option.isSome_iff_exists.1 ha
  obtain ⟨y, rfl⟩ := Option.isSome_iff_exists.1 hb
  cases x <;> cases y <;> simp [cmpFrame]

theorem cmpFrames_eq : ∀ {l m : List (Loc × Option Dec)}, l.length = m.length →
    (∀ a ∈ l, a.2.isSome) → (∀ a ∈ m, a.2.isSome) → cmpFrames l m = some (decide (l = m)) := by
  intro l
  induction l with
  | nil => intro m h _ _; cases m <;> simp_all [cmpFrames]
  | cons a l ih =>
    intro m h hl hm
    cases m with
    | nil => simp at h
    | cons b m =>
      unfold cmpFrames
      rw [cmpFrame_eq (hl a (by simp)) (hm b (by simp))]
      by_cases hab : a = b
      · subst hab
        simp only [decide_true, List.cons.injEq, true_and]
        exact ih (by simpa using h) (fun x hx => hl x (by simp [hx])) fun x hx => hm x (by simp [hx])
      · simp [hab]

theorem expected_some (sys : Option Nat) (fs : List (Nat × Option (Nat × Nat))) :
    ∀ a ∈ expected sys fs, a.2.isSome := by
  intro a ha
  unfold expected at ha
  rcases List.mem_append.1 ha with h | h
  · cases sys with
    | none => cases h
    | some x => simp at h; subst h; rfl
  · obtain ⟨f, -, rfl⟩ := List.mem_map.1 h; rfl

theorem plain_inj {r q : Option (Nat × Nat)} (h : plain r = plain q) : r = q := by
  rcases r with _ | ⟨a, b⟩ <;> rcases q with _ | ⟨c, d⟩ <;> simp_all [plain]

theorem expected_inj {sys sys' : Option Nat} {fs fs' : List (Nat × Option (Nat × Nat))} :
    expected sys fs = expected sys' fs' ↔ sys = sys' ∧ fs = fs' := by
  have hmap : ∀ {l m : List (Nat × Option (Nat × Nat))},
      (l.map fun f => (Loc.addr f.1, some (plain f.2))) =
      (m.map fun f => (Loc.addr f.1, some (plain f.2))) ↔ l = m := by
    intro l m
    refine ⟨fun h => ?_, fun h => by rw [h]⟩
    refine List.map_injective_iff.2 ?_ h
    rintro ⟨a, b⟩ ⟨c, e⟩ hh
    simp only [Prod.mk.injEq, Loc.addr.injEq, Option.some.injEq] at hh
    rw [hh.1, plain_inj hh.2]
  unfold expected
  rcases sys with _ | x <;> rcases sys' with _ | y
  · simp only [List.nil_append, hmap, true_and]
  · simp only [List.nil_append, List.cons_append, reduceCtorEq, false_and, iff_false]
    intro h
    cases fs with
    | nil => simp at h
    | cons f fs => simp at h
  · simp only [List.nil_append, List.cons_append, reduceCtorEq, false_and, iff_false]
    intro h
    cases fs' with
    | nil => simp at h
    | cons f fs => simp at h
  · simp only [List.cons_append, List.nil_append, List.cons.injEq, hmap, Prod.mk.injEq,
      Loc.sys.injEq, and_true, Option.some.injEq]

theorem isNone_nonNull {α : Type} (l : List α) : (nonNull l).isNone = l.isEmpty := by
  unfold nonNull; cases l <;> rfl

section
variable {S : Sys} {E : Env} {junk : Nat} {sys : Option Nat}
  {fs : List (Nat × Option (Nat × Nat))} {p : Pcs}

theorem Recorded.null (h : Recorded S E junk sys fs p) :
    p.isNull = (sys.isNone && fs.isEmpty) := by
  rw [h.shape]
  split <;> simp only [Pcs.isNull, isNone_nonNull] <;> cases sys <;> cases fs <;> rfl

theorem Recorded.num (h : Recorded S E junk sys fs p) :
    p.num = sys.toList.length + fs.length := by
  rw [h.shape]
  split <;> simp [Pcs.num, nonNull_getD]

theorem Recorded.firstSys (h : Recorded S E junk sys fs p) : p.firstSys = sys.isSome := by
  rw [h.shape]
  split <;> rfl

theorem Recorded.frames (h : Recorded S E junk sys fs p) :
    p.frames = if p.isPacked = true then
      .packed (nonNull ((sys.toList.map fun x => ⟨.sys x, junk, 0⟩) ++
        fs.map fun f => packFrame S.names f.1 f.2))
    else .full (nonNull ((sys.toList.map fun x => ⟨.sys x, junk, .sys⟩) ++
        fs.map fun f => fullFrame f.1 f.2)) := by
  by_cases hl : S.names.last < 255
  · rw [if_pos (h.packed.2 hl), h.shape, if_pos hl]
  · rw [if_neg (by rw [h.packed]; exact hl), h.shape, if_neg hl]
end

theorem length_expected (sys : Option Nat) (fs : List (Nat × Option (Nat × Nat))) :
    (expected sys fs).length = sys.toList.length + fs.length := by
  unfold expected; cases sys <;> simp; omega

theorem nonNull_inj {α : Type} {l m : List α} : nonNull l = nonNull m ↔ l = m := by
  unfold nonNull; cases l <;> cases m <;> simp

/-- The comparison of two recorded stacks. -/
theorem Recorded.cmp {S T : Sys} {E F : Env} {junk junk' : Nat} {sys sys' : Option Nat}
    {fs fs' : List (Nat × Option (Nat × Nat))} {p q : Pcs} (h : Recorded S E junk sys fs p)
    (g : Recorded T F junk' sys' fs' q) {n : Names} (eS : Ext S.names n) (eT : Ext T.names n)
    (hc : (sys = none ∧ sys' = none ∧ p.isPacked = q.isPacked) ∨
      ((p.isPacked = true → FitsAll (fs.map toSeen)) ∧
       (q.isPacked = true → FitsAll (fs'.map toSeen)))) :
    Cs.cmp n p q = some (decide (sys = sys' ∧ fs.map toSeen = fs'.map toSeen)) := by
  have hdec : (p.isPacked = true → FitsAll (fs.map toSeen)) →
      (q.isPacked = true → FitsAll (fs'.map toSeen)) → p.num = q.num →
      cmpFrames (Cs.decode n p) (Cs.decode n q) =
        some (decide (sys = sys' ∧ fs.map toSeen = fs'.map toSeen)) := by
    intro a b hn
    rw [h.num, g.num] at hn
    rw [h.decode eS, g.decode eT, answers_eq a, answers_eq b,
      cmpFrames_eq (by rw [length_expected, length_expected]; simpa using hn)
        (expected_some _ _) (expected_some _ _)]
    simp only [expected_inj]
  unfold Cs.cmp
  split
  · rename_i hp
    rw [h.null] at hp
    rw [g.null]
    cases sys <;> cases fs <;> simp at hp
    cases sys' <;> cases fs' <;> simp
  rename_i hp
  split
  · rename_i hq
    rw [g.null] at hq
    rw [h.null] at hp
    cases sys' <;> cases fs' <;> simp at hq
    cases sys <;> cases fs <;> simp at hp ⊢
  split
  · rename_i hn
    rw [h.num, g.num] at hn
    symm
    rw [Option.some.injEq, decide_eq_false_iff_not]
    rintro ⟨rfl, he⟩
    have := congrArg List.length he
    simp only [List.length_map] at this
    exact hn (by rw [this])
  rename_i hn
  have hn' : p.num = q.num := Decidable.not_not.1 hn
  split
  · rename_i hs
    rw [h.firstSys, g.firstSys] at hs
    obtain rfl : sys = none := by cases sys <;> simp_all
    obtain rfl : sys' = none := by cases sys' <;> simp_all
    by_cases hk : p.isPacked = q.isPacked
    · cases hpk : p.isPacked with
      | true =>
        rw [h.frames, if_pos hpk, g.frames, if_pos (hk ▸ hpk)]
        simp only [Option.some.injEq, nonNull_inj, Option.toList_none, List.map_nil,
          List.nil_append, true_and, decide_eq_decide]
        exact map_eq_map_iff fun a ha b hb => packFrame_inj h.inv g.inv (h.packed.1 hpk)
          (g.packed.1 (hk ▸ hpk)) eS eT (h.ok a ha) (g.ok b hb)
      | false =>
        rw [h.frames, if_neg (by simp [hpk]), g.frames, if_neg (by simp [← hk, hpk])]
        simp only [Option.some.injEq, nonNull_inj, Option.toList_none, List.map_nil,
          List.nil_append, true_and, decide_eq_decide]
        exact map_eq_map_iff fun a ha b hb => fullFrame_inj (h.ok a ha) (g.ok b hb)
    · rcases hc with ⟨-, -, hc⟩ | ⟨hc1, hc2⟩
      · exact absurd hc hk
      have := hdec hc1 hc2 hn'
      have hf := h.frames
      have gf := g.frames
      cases hpk : p.isPacked <;> cases hqk : q.isPacked
      · exact absurd (hpk.trans hqk.symm) hk
      · rw [if_neg (by simp [hpk])] at hf
        rw [if_pos hqk] at gf
        rw [hf, gf]; exact this
      · rw [if_pos hpk] at hf
        rw [if_neg (by simp [hqk])] at gf
        rw [hf, gf]; exact this
      · exact absurd (hpk.trans hqk.symm) hk
  · rename_i hs
    rw [h.firstSys, g.firstSys] at hs
    rcases hc with ⟨rfl, rfl, -⟩ | ⟨hc1, hc2⟩
    · simp at hs
    · exact hdec hc1 hc2 hn'

/-- C31, comparison, partial: take two callstacks recorded at two points of any history and compare
them at a third point.  They compare equal iff they stem from the same system call (or none) and
have the same frames, that is the same addresses in the same modules at the same offsets.
Missing: if one of them starts with a system call, or one is packed and the other not, the offsets
must be such that C30 holds for packed frames; `C31_cmp_confuses` shows what happens otherwise. -/
theorem C31_cmp_partial (d : Bool) (ops1 ops2 ops3 : List Op) (junk junk' : Nat)
    (sys sys' : Option Nat) (pcs pcs' : List (Nat × Bool))
    (hok : Env.OkAll {} (ops1 ++ (ops2 ++ ops3))) :
    ∃ S fs T fs' U, ops1.foldlM (Sys.step d) {} = some S ∧
      SeesAll (ops1.foldl loaded []) pcs fs ∧
      ops2.foldlM (Sys.step d) { S with tr := (record junk sys pcs S.names S.tr).1 } = some T ∧
      SeesAll ((ops1 ++ ops2).foldl loaded []) pcs' fs' ∧
      ops3.foldlM (Sys.step d) { T with tr := (record junk' sys' pcs' T.names T.tr).1 } = some U ∧
      let p := (record junk sys pcs S.names S.tr).2
      let q := (record junk' sys' pcs' T.names T.tr).2
      ((sys = none ∧ sys' = none ∧ p.isPacked = q.isPacked) ∨
        ((p.isPacked = true → FitsAll fs) ∧ (q.isPacked = true → FitsAll fs')) →
        cmp U.names p q = some (decide (sys = sys' ∧ fs = fs')) ∧
        cmp U.names q p = some (decide (sys = sys' ∧ fs = fs'))) := by
  obtain ⟨hok1, hok23⟩ := OkAll_append hok
  obtain ⟨hok2, hok3⟩ := OkAll_append hok23
  obtain ⟨S, h1, h2, -⟩ := SInv.history d ops1 {} {} SInv.init hok1
  obtain ⟨fs, g1, g2, g3⟩ := record_spec h2 junk sys pcs
  obtain ⟨T, k1, k2, k3⟩ := SInv.history d ops2 _ _ g2 hok2
  obtain ⟨fs', l1, l2, l3⟩ := record_spec k2 junk' sys' pcs'
  obtain ⟨U, m1, -, m3⟩ := SInv.history d ops3 _ _ l2 hok3
  refine ⟨S, fs.map toSeen, T, fs'.map toSeen, U, h1, ?_, k1, ?_, m1, ?_⟩
  · rw [now_foldl] at g1; exact g1
  · rw [now_foldl, now_foldl] at l1; rw [List.foldl_append]; exact l1
  · intro p q hc
    refine ⟨g3.cmp l3 (k3.trans m3) m3 hc, ?_⟩
    rw [l3.cmp g3 m3 (k3.trans m3)
      (hc.imp (fun ⟨a, b, c⟩ => ⟨b, a, c.symm⟩) (fun ⟨a, b⟩ => ⟨b, a⟩))]
    rw [Option.some.injEq, decide_eq_decide]
    exact ⟨fun ⟨a, b⟩ => ⟨a.symm, b.symm⟩, fun ⟨a, b⟩ => ⟨a.symm, b.symm⟩⟩

/-- A stack with a system call and a frame at offset 2^24 - 1 compares equal to the stack with the
same system call whose frame is at that address in no module. -/
theorem C31_cmp_confuses :
    let m : Mod := ⟨1, true, 0x10000, 0x2010000, []⟩
    let p := record 0 (some 5) [(0x10000 + 0xffffff, false)] (addNewModule m {})
    ((loadTree true m {}).map fun t => (cmp (addNewModule m {}) (p t).2 (p {}).2,
      cmp (addNewModule m {}) (record 0 none [(0x10000 + 0xffffff, false)] (addNewModule m {}) t).2
        (record 0 none [(0x10000 + 0xffffff, false)] (addNewModule m {}) {}).2)) =
    some (some true, some false) := by
  decide +kernel

/-! ## C31: hash and clone -/

/-- The stacks that exist: recorded ones and clones. -/
inductive Made : Pcs → Prop
  | record (junk : Nat) (sys : Option Nat) (pcs : List (Nat × Bool)) (n : Names) (s : Tr) :
      Made (record junk sys pcs n s).2
  | clone (z : Bool) {p : Pcs} (h : Made p) : Made (clone z p)

theorem clone_locs (z : Bool) (p : Pcs) : (Cs.clone z p).locs = p.locs := by
  obtain ⟨f, b⟩ := p
  unfold Cs.clone Pcs.locs
  rcases f with l | l <;> simp only <;> split <;> simp_all

/-- A stack says that its first frame is a system call iff it is. -/
theorem Made.first {p : Pcs} (h : Made p) : p.firstSys = true ↔ ∃ x t, p.locs = .sys x :: t := by
  induction h with
  | record junk sys pcs n s =>
    have hp : ∀ f : Nat × Option (Nat × Nat), (packFrame n f.1 f.2).loc = .addr f.1 := by
      intro f; unfold packFrame; cases f.2 <;> rfl
    have hf : ∀ f : Nat × Option (Nat × Nat), (fullFrame f.1 f.2).loc = .addr f.1 := by
      intro f; unfold fullFrame; cases f.2 <;> rfl
    unfold Cs.record
    simp only
    split <;> cases sys
    · simp only [Pcs.locs, nonNull_getD, Bool.false_eq_true, false_iff]
      rintro ⟨x, t, h⟩
      cases hw : (walk pcs s).2 with
      | nil => rw [hw] at h; simp at h
      | cons f l => rw [hw] at h; simp [hp] at h
    · simp [Pcs.locs, nonNull_getD]
    · simp only [Pcs.locs, nonNull_getD, Bool.false_eq_true, false_iff]
      rintro ⟨x, t, h⟩
      cases hw : (walk pcs s).2 with
      | nil => rw [hw] at h; simp at h
      | cons f l => rw [hw] at h; simp [hf] at h
    · simp [Pcs.locs, nonNull_getD]
  | clone z h ih =>
    rw [clone_locs, ← ih]
    unfold Cs.clone
    split <;> rfl

theorem decode_locs (n : Names) (p : Pcs) : (decode n p).map Prod.fst = p.locs := by
  unfold decode Pcs.locs
  split <;> simp [Function.comp_def]

theorem cmpFrame_locs {a b : Loc × Option Dec} (h : cmpFrame a b = some true) : a.1 = b.1 := by
  unfold cmpFrame at h
  split at h <;> simp_all

theorem cmpFrames_locs : ∀ {l m : List (Loc × Option Dec)}, l.length = m.length →
    cmpFrames l m = some true → l.map Prod.fst = m.map Prod.fst := by
  intro l
  induction l with
  | nil => intro m h _; cases m <;> simp_all
  | cons a l ih =>
    intro m h hc
    cases m with
    | nil => simp at h
    | cons b m =>
      unfold cmpFrames at hc
      split at hc
      · rename_i h1
        simp only [List.map_cons, List.cons.injEq]
        exact ⟨cmpFrame_locs h1, ih (by simpa using h) hc⟩
      · rename_i h1
        exact absurd hc h1

theorem num_locs (p : Pcs) : p.num = p.locs.length := by
  unfold Pcs.num Pcs.locs
  split <;> simp

theorem null_locs {p : Pcs} (h : p.isNull = true) : p.locs = [] := by
  unfold Pcs.isNull at h
  unfold Pcs.locs
  split <;> simp_all

/-- C31: callstacks that compare equal have the same hash, whatever offsets they contain. -/
theorem C31_hash (n : Names) {p q : Pcs} (hp : Made p) (hq : Made q)
    (h : cmp n p q = some true) : hash p = hash q := by
  have key : p.locs = q.locs → hash p = hash q := by
    intro hl
    have : p.firstSys = q.firstSys := by
      rw [Bool.eq_iff_iff, hp.first, hq.first, hl]
    unfold hash
    rw [hl, this]
  have fr : p.num = q.num → cmpFrames (decode n p) (decode n q) = some true → p.locs = q.locs := by
    intro hn hc
    rw [← decode_locs n p, ← decode_locs n q]
    refine cmpFrames_locs ?_ hc
    rw [num_locs, num_locs, ← decode_locs n p, ← decode_locs n q] at hn
    simpa using hn
  apply key
  unfold cmp at h
  split at h
  · rename_i h1
    rw [null_locs h1, null_locs (Option.some.inj h)]
  split at h
  · cases h
  split at h
  · cases h
  rename_i hn
  have hn' : p.num = q.num := Decidable.not_not.1 hn
  split at h
  · split at h
    · rename_i h1 h2
      simp only [Option.some.injEq, decide_eq_true_eq] at h
      unfold Pcs.locs
      rw [h1, h2, h]
    · rename_i h1 h2
      simp only [Option.some.injEq, decide_eq_true_eq] at h
      unfold Pcs.locs
      rw [h1, h2, h]
    · exact fr hn' h
  · exact fr hn' h

theorem clone_nonNull {α : Type} (z : Bool) (l : List α) (h : z = true ∨ l ≠ []) :
    (if z = true ∧ ((nonNull l).getD []).isEmpty = true then none
      else some ((nonNull l).getD [])) = nonNull l := by
  rw [nonNull_getD]
  cases l <;> cases z <;> simp_all [nonNull]

/-- C31: the clone of a recorded callstack is the same callstack, if it has frames or if an
allocation of size 0 is `NULL`. -/
theorem C31_clone (z : Bool) (junk : Nat) (sys : Option Nat) (pcs : List (Nat × Bool)) (n : Names)
    (s : Tr) (h : z = true ∨ (record junk sys pcs n s).2.locs ≠ []) :
    clone z (record junk sys pcs n s).2 = (record junk sys pcs n s).2 := by
  revert h
  unfold record
  simp only
  split <;> cases sys <;> intro h <;> simp only [clone] <;> rw [clone_nonNull] <;>
    (rcases h with h | h
     · exact .inl h
     · right
       intro hl
       simp only [Pcs.locs, nonNull_getD, hl, List.map_nil] at h
       exact h rfl)

/-- Otherwise the clone differs: a stack without frames does not compare equal to its clone. -/
theorem C31_clone_empty (n : Names) :
    cmp n (record 0 none [] {} {}).2 (clone false (record 0 none [] {} {}).2) = some false := rfl

example : (record 0 (some 5) [(0x10, false), (0x20, true), (0x123, false)] {} {}).2.locs =
    [.sys 5, .addr 0x10, .addr 0x123] ∧
    hash (record 0 (some 5) [(0x10, false), (0x20, true), (0x123, false)] {} {}).2 = 0x133 := by
  decide +kernel

end Verif.Cs
