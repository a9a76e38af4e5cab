import Verif.Umbra32Copy
/-!
# C59: the 32-bit shadow table behaves like private shadow memory
-/
namespace Verif.Umbra32

/-! ## Specification -/

/-- Calls to the library. -/
inductive Op where
  | create (shared : Bool) (a n v : Nat)
  | delete (a n : Nat)
  | set (a n v : Nat)
  | read (a n : Nat)
  | write (a n : Nat) (data : List UInt8)
  | replace (a : Nat)
  | newShared (v : Nat)
  | clear

/-- What a call returns: status, bytes read, size. -/
structure Out where
  st : Status
  bytes : List UInt8 := []
  size : Nat := 0
  deriving DecidableEq

/-- Calls the theorem speaks about. -/
def Op.Ok (c : Cfg) : Op → Prop
  | .create _ a n _ => Umbra32.Ok c a n
  | .delete a n => Umbra32.Ok c a n
  | .set a n v => Umbra32.Ok c a n ∧ v < 256
  | .read a n => Umbra32.Ok c a n
  | .write a n data => Umbra32.Ok c a n ∧ scale c n ≤ data.length
  | .replace a => a < W
  | .newShared v => v < 256
  | .clear => True

/-- The library: one call.  A full list of shared blocks is not reported to the user here
(`C59_new_shared` says when it happens). -/
def step (c : Cfg) (al : Alloc) (m : Map) : Op → Map × Out
  | .create sh a n v => let r := create c al m sh a n v; (r.1, { st := r.2 })
  | .delete a n =>
    let r := delete c al m a n; (r.1.1, { st := r.2, size := if r.2 = .ok then r.1.2 else 0 })
  | .set a n v =>
    let r := setRange c al m a n v; (r.1.1, { st := r.2, size := if r.2 = .ok then r.1.2 else 0 })
  | .read a n => let r := read c m a n (scale c n); (m, { st := r.2, bytes := r.1 })
  | .write a n data =>
    let r := write c al m a n data.length (fun _ i => data.getD i 0)
    (r.1.1, { st := r.2, size := if r.2 = .ok then r.1.2 else 0 })
  | .replace a => let r := replaceShared c al m a; (r.1.1, { st := r.2 })
  | .newShared v =>
    let r := createShared c al m v; (r.1, { st := if r.2.2 = .noMem then .ok else r.2.2 })
  | .clear => let r := clearRedundant c m; (r.1.1, { st := r.2 })

/-- Result of a call that stores bytes: they are stored up to the first index without shadow. -/
def putSpec (c : Cfg) (sh : Sh) (a n : Nat) (d : Nat → UInt8) : Sh × Out :=
  let r := run sh (nom c a) (nom c n)
  (upd sh (nom c a) r d,
    if r = nom c n then { st := .ok, size := nom c n } else { st := .invalidParameter })

/-- The specification: every application byte has shadow of its own, nothing is shared. -/
def specStep (c : Cfg) (sh : Sh) : Op → Sh × Out
  | .create _ a n v =>
    if v ≥ 255 then (sh, { st := .featureNotAvailable })
    else (created c sh a n (UInt8.ofNat v), { st := .ok })
  | .delete a n => putSpec c sh a n (fun _ => c.dflt)
  | .set a n v => putSpec c sh a n (fun _ => UInt8.ofNat v)
  | .read a n =>
    let r := run sh (nom c a) (nom c n)
    (sh, { st := if r = nom c n then .ok else .invalidParameter,
           bytes := (List.range r).map fun i => (sh (nom c a + i)).getD 0 })
  | .write a n data => putSpec c sh a n (fun i => data.getD i 0)
  | .replace a => (present c sh (a / B), { st := .ok })
  | .newShared _ => (sh, { st := .ok })
  | .clear => (sh, { st := if c.onTouch then .ok else .invalidParameter })

/-- Run calls in order and collect what they return. -/
def runOps {σ : Type} (f : σ → Op → σ × Out) (s : σ) : List Op → σ × List Out
  | [] => (s, [])
  | op :: ops =>
    let r := f s op
    let r' := runOps f r.1 ops
    (r'.1, r.2 :: r'.2)

/-- Shadow of a new map: nothing, or default values everywhere with create-on-touch. -/
def sh0 (c : Cfg) : Sh := fun _ => if c.onTouch then some c.dflt else none

/-! ## One call -/

theorem put_out {c : Cfg} {al : Alloc} {m : Map} {a n : Nat} {d : Nat → UInt8}
    {r : (Map × Nat) × Status}
    (h : r.2 = .oom ∨ (Inv c r.1.1 ∧ view c r.1.1 =
        upd (view c m) (nom c a) (run (view c m) (nom c a) (nom c n)) d ∧
      r.2 = (if run (view c m) (nom c a) (nom c n) = nom c n then .ok else .invalidParameter) ∧
      (run (view c m) (nom c a) (nom c n) = nom c n → r.1.2 = nom c n))) :
    r.2 = .oom ∨ (Inv c r.1.1 ∧
      (view c r.1.1, ({ st := r.2, size := if r.2 = .ok then r.1.2 else 0 } : Out)) =
        putSpec c (view c m) a n d) := by
  rcases h with h | ⟨h1, h2, h3, h4⟩
  · exact Or.inl h
  · refine Or.inr ⟨h1, ?_⟩
    rw [putSpec]
    rw [h2, h3]
    by_cases hr : run (view c m) (nom c a) (nom c n) = nom c n
    · rw [if_pos hr, if_pos hr, h4 hr]; rfl
    · rw [if_neg hr, if_neg hr]; rfl

/-- Every call keeps the invariant and does to the user's shadow what the specification says, unless
memory is exhausted. -/
theorem step_spec {c : Cfg} (hc : c.Valid) {al : Alloc} (ha : al.Good c) {m : Map} (hi : Inv c m)
    {op : Op} (hop : op.Ok c) :
    (step c al m op).2.st = .oom ∨
    (Inv c (step c al m op).1 ∧
      (view c (step c al m op).1, (step c al m op).2) = specStep c (view c m) op) := by
  cases op with
  | create sh a n v =>
    simp only [step, specStep]
    by_cases hv : v ≥ 255
    · right
      rw [if_pos hv, create, if_pos hv]
      exact ⟨hi, rfl⟩
    · rw [if_neg hv]
      rcases create_spec (shared := sh) hc ha hi hop (by omega : v < 255) with h | ⟨h1, h2, h3⟩
      · exact Or.inl h
      · right; refine ⟨h2, ?_⟩; rw [h1, h3]
  | delete a n =>
    simp only [step, specStep]
    have := setRange_spec hc ha hi hop c.dflt.toNat_lt
    rw [UInt8.ofNat_toNat] at this
    exact put_out (al := al) this
  | set a n v =>
    simp only [step, specStep]
    exact put_out (al := al) (setRange_spec hc ha hi hop.1 hop.2)
  | read a n =>
    simp only [step, specStep]
    right
    refine ⟨hi, ?_⟩
    rw [read_spec hc hi hop (Nat.le_refl _)]
  | write a n data =>
    simp only [step, specStep]
    exact put_out (al := al) (write_spec hc ha hi hop.1 hop.2 _)
  | replace a =>
    simp only [step, specStep, replaceShared]
    rcases replaceBlock_spec hc ha hi a with h | ⟨h1, h2, h3, h4, h5⟩
    · exact Or.inl h
    · right; refine ⟨h2, ?_⟩; rw [h4, h1]
  | newShared v =>
    simp only [step, specStep]
    have hcs' : createShared c al m v = createShared c al m v := rfl
    conv at hcs' => rhs; rw [createShared]
    cases hcs : createSpecial c al m v with
    | none => rw [hcs] at hcs'; rw [hcs']; exact Or.inl rfl
    | some r =>
      obtain ⟨m1, ob⟩ := r
      rw [hcs] at hcs'
      obtain ⟨s1, s2, -, -, -⟩ := createSpecial_spec hc ha hi hop hcs
      right
      cases ob with
      | none => rw [hcs']; refine ⟨s1, ?_⟩; dsimp only; rw [s2]; rfl
      | some b => rw [hcs']; refine ⟨s1, ?_⟩; dsimp only; rw [s2]; rfl
  | clear =>
    simp only [step, specStep, clearRedundant]
    right
    cases ht : c.onTouch with
    | false => exact ⟨hi, rfl⟩
    | true =>
      obtain ⟨h1, h2, -, -, -⟩ := clearFold hc ht (List.range 65536) m 0 hi List.nodup_range
      simp only [Bool.not_true, Bool.false_eq_true, if_false, if_true]
      exact ⟨h1, by rw [h2]⟩

theorem runOps_spec {c : Cfg} (hc : c.Valid) {al : Alloc} (ha : al.Good c) (ops : List Op) :
    ∀ (m : Map), Inv c m → (∀ op ∈ ops, op.Ok c) →
    (∀ o ∈ (runOps (step c al) m ops).2, o.st ≠ .oom) →
    Inv c (runOps (step c al) m ops).1 ∧
    (view c (runOps (step c al) m ops).1, (runOps (step c al) m ops).2) =
      runOps (specStep c) (view c m) ops := by
  induction ops with
  | nil => intro m hi _ _; exact ⟨hi, rfl⟩
  | cons op ops ih =>
    intro m hi hok hno
    rw [runOps] at hno ⊢
    dsimp only at hno ⊢
    rcases step_spec hc ha hi (hok op List.mem_cons_self) with h | ⟨h1, h2⟩
    · exact absurd h (hno _ List.mem_cons_self)
    · have hih := ih _ h1 (fun o ho => hok o (List.mem_cons_of_mem _ ho))
        (fun o ho => hno o (List.mem_cons_of_mem _ ho))
      refine ⟨hih.1, ?_⟩
      rw [runOps]
      rw [← h2]
      dsimp only
      rw [← hih.2]

/-! ## The new map -/

theorem init_base {c : Cfg} {m : Map} (b : Nat) (hb : b < W) (k : Nat) :
    getBlock c { m with table := fun i => (b + (W - scale c (i * B % W))) % W } k = b := by
  unfold getBlock
  dsimp only
  have := scale_lt c (k * B % W)
  generalize scale c (k * B % W) = x at *
  unfold W at *
  omega

/-- A new map satisfies the invariant and shows no shadow, or default values with create-on-touch. -/
theorem init_spec {c : Cfg} (hc : c.Valid) {al : Alloc} (ha : al.Good c) {mem : Nat → UInt8} {m : Map}
    (h : init c al mem = some m) : Inv c m ∧ view c m = sh0 c := by
  have hS := S_bounds hc
  rw [init] at h
  cases ht : c.onTouch with
  | true =>
    rw [ht, if_pos rfl] at h
    simp only [createSpecial, lookupSpecial, List.find?_nil, Option.map_none, List.length_nil] at h
    rw [if_neg (by omega)] at h
    cases hs : specialHelper c al ⟨fun _ => 0, 0, [], mem, fun _ => .none, []⟩ c.dflt.toNat with
    | none => rw [hs] at h; simp at h
    | some r =>
      obtain ⟨m1, b⟩ := r
      rw [hs] at h
      simp only [Option.some.injEq] at h
      obtain ⟨g, gm⟩ := specialHelper_spec ha hs
      have hb : b < W := by have := g.hi; omega
      have hsp : m1.specials = [] := g.specials
      rw [hsp] at h
      have hlive : m1.live = [b] := g.live
      have hblk : ∀ k, getBlock c m k = b := by
        intro k; rw [← h]; exact init_base (m := { m1 with specials := [] ++ [(b, c.dflt.toNat)] }) b hb k
      have e_sp : m.specials = [(b, c.dflt.toNat)] := by rw [← h]; rfl
      have e_live : m.live = [b] := by rw [← h]; exact hlive
      have e_mem : m.mem = m1.mem := by rw [← h]
      have e_dflt : m.dflt = 0 := by rw [← h]; exact g.dflt
      have hsh : Shared c m b := Or.inr ⟨(b, c.dflt.toNat), by rw [e_sp]; exact List.mem_cons_self, rfl⟩
      have e_perm : m.perm = m1.perm := by rw [← h]
      refine ⟨⟨?_, ?_, ?_, fun _ => e_dflt, ?_, ?_, ?_, ?_, ?_, ?_⟩, ?_⟩
      · rw [e_live]
        intro x hx y hy hne
        rw [List.mem_singleton] at hx hy
        exact absurd (hx.trans hy.symm) hne
      · rw [e_live]
        intro x hx
        rw [List.mem_singleton] at hx
        subst hx
        exact ⟨g.lo, g.hi⟩
      · intro k; rw [hblk, e_live]; exact List.mem_cons_self
      · intro hf; rw [ht] at hf; simp at hf
      · rw [e_sp, e_live, e_mem]
        intro p hp
        rw [List.mem_singleton] at hp
        subst hp
        exact ⟨List.mem_cons_self, c.dflt.toNat_lt, fun i hlt => (gm i hlt).1⟩
      · intro _; rw [e_sp]; exact ⟨_, List.mem_cons_self, rfl⟩
      · intro k j _ _; rw [hblk]; exact hsh
      · rw [e_live]
        intro x hx hn
        rw [List.mem_singleton] at hx
        exact absurd (hx ▸ hsh) hn
      · intro x hx i hlt
        have hxb : x = b := by
          rcases hx with ⟨h1, -⟩ | ⟨p, hp, he⟩
          · rw [ht] at h1; simp at h1
          · rw [e_sp, List.mem_singleton] at hp
            subst hp
            exact he.symm
        rw [e_perm, hxb]
        exact (gm i hlt).2
      · funext t
        rw [view, hblk, sh0, ht, e_mem, if_neg (by simp), (gm _ (Nat.mod_lt _ (by omega))).1]
        simp
  | false =>
    rw [ht, if_neg (by simp)] at h
    cases hs : specialHelper c al ⟨fun _ => 0, 0, [], mem, fun _ => .none, []⟩ c.dflt.toNat with
    | none => rw [hs] at h; simp at h
    | some r =>
      obtain ⟨m1, b⟩ := r
      rw [hs] at h
      simp only [Option.some.injEq] at h
      obtain ⟨g, gm⟩ := specialHelper_spec ha hs
      have hb : b < W := by have := g.hi; omega
      have hlive : m1.live = [b] := g.live
      have hblk : ∀ k, getBlock c m k = b := by
        intro k; rw [← h]; exact init_base (m := { m1 with dflt := b }) b hb k
      have e_sp : m.specials = [] := by rw [← h]; exact g.specials
      have e_live : m.live = [b] := by rw [← h]; exact hlive
      have e_mem : m.mem = m1.mem := by rw [← h]
      have e_dflt : m.dflt = b := by rw [← h]
      have hsh : Shared c m b := Or.inl ⟨ht, e_dflt.symm⟩
      have e_perm : m.perm = m1.perm := by rw [← h]
      refine ⟨⟨?_, ?_, ?_, ?_, ?_, ?_, ?_, ?_, ?_, ?_⟩, ?_⟩
      · rw [e_live]
        intro x hx y hy hne
        rw [List.mem_singleton] at hx hy
        exact absurd (hx.trans hy.symm) hne
      · rw [e_live]
        intro x hx
        rw [List.mem_singleton] at hx
        subst hx
        exact ⟨g.lo, g.hi⟩
      · intro k; rw [hblk, e_live]; exact List.mem_cons_self
      · intro hf; rw [ht] at hf; simp at hf
      · intro _
        rw [e_dflt, e_live, e_mem, e_sp]
        refine ⟨List.mem_cons_self, fun i hlt => ?_, fun p hp => by simp at hp⟩
        rw [(gm i hlt).1]; simp
      · rw [e_sp]; intro p hp; simp at hp
      · intro hf; rw [ht] at hf; simp at hf
      · intro k j _ _; rw [hblk]; exact hsh
      · rw [e_live]
        intro x hx hn
        rw [List.mem_singleton] at hx
        exact absurd (hx ▸ hsh) hn
      · intro x hx i hlt
        have hxb : x = b := by
          rcases hx with ⟨-, h2⟩ | ⟨p, hp, he⟩
          · exact h2.trans e_dflt
          · rw [e_sp] at hp; simp at hp
        rw [e_perm, hxb]
        exact (gm i hlt).2
      · funext t
        rw [view, hblk, sh0, ht, e_dflt]
        simp

/-! ## Main theorems -/

/-- C59: for every sequence of calls on a new map, what the calls return and the shadow a user sees
afterwards are those of the specification, in which nothing is shared.  In particular no call stores to
memory that is not writable, writing the shadow of one address never changes the shadow of another, and
making blocks shared or private is invisible.

Hypotheses: the allocator returns memory that is not in use; it is not exhausted; ranges are
granule-aligned and do not end exactly one byte into a block (`Op.Ok`, see `C59_last_byte`).  Copying is
treated in `C59_copy_partial`. -/
theorem C59_history_partial {c : Cfg} (hc : c.Valid) {al : Alloc} (ha : al.Good c)
    {mem : Nat → UInt8} {m0 : Map} (h0 : init c al mem = some m0) (ops : List Op)
    (hops : ∀ op ∈ ops, op.Ok c) (hno : ∀ o ∈ (runOps (step c al) m0 ops).2, o.st ≠ .oom) :
    (view c (runOps (step c al) m0 ops).1, (runOps (step c al) m0 ops).2) =
      runOps (specStep c) (sh0 c) ops := by
  obtain ⟨i1, i2⟩ := init_spec hc ha h0
  have := (runOps_spec hc ha ops m0 i1 hops hno).2
  rwa [i2] at this

/-- The maps that calls can lead to. -/
def Reach (c : Cfg) (al : Alloc) (m : Map) : Prop :=
  ∃ mem m0 ops, init c al mem = some m0 ∧ (∀ op ∈ ops, Op.Ok c op) ∧
    (∀ o ∈ (runOps (step c al) m0 ops).2, o.st ≠ .oom) ∧ (runOps (step c al) m0 ops).1 = m

theorem Reach.inv {c : Cfg} (hc : c.Valid) {al : Alloc} (ha : al.Good c) {m : Map}
    (h : Reach c al m) : Inv c m := by
  obtain ⟨mem, m0, ops, h0, h1, h2, rfl⟩ := h
  exact (runOps_spec hc ha ops m0 (init_spec hc ha h0).1 h1 h2).1

theorem scale_split {c : Cfg} (hc : c.Valid) (a : Nat) :
    a * c.m / c.g = a / B * B * c.m / c.g + a % B * c.m / c.g := by
  have hB := B_eq
  rw [hB]
  have hsc := hc.sc
  rcases hsc with ⟨e1, e2 | e2 | e2 | e2⟩ | ⟨e1, e2⟩ <;> rw [e1, e2] <;> omega

/-- The code inserted on x86 computes, for every application address, the address that
`shadow_table_app_to_shadow` computes, whatever the table holds. -/
theorem C59_inserted_x86 {c : Cfg} (hc : c.Valid) (m : Map) {a : Nat} (ha : a < W) :
    genX86 c m a = appToShadow c m a := by
  have h1 := scale_split hc a
  have h2 : a / B * B ≤ a := Nat.div_mul_le_self a B
  have h3 : a / B * B % W = a / B * B := Nat.mod_eq_of_lt (by omega)
  have hB := B_eq
  rw [genX86, appToShadow, getBlock, h3, ← hB]
  unfold scale
  rw [h1]
  generalize a / B * B * c.m / c.g = x
  generalize a % B * c.m / c.g = y
  generalize m.table (a / B) = z
  rw [W_eq]
  omega

/-- The code inserted on ARM does the same when the table is aligned to words and inside the address
space; in particular it loads one of the table's entries. -/
theorem C59_inserted_arm {c : Cfg} (hc : c.Valid) (m : Map) {a tb : Nat} (ha : a < W)
    (h4 : tb % 4 = 0) (htb : tb + 262144 ≤ W) :
    genArm c m tb a = some (appToShadow c m a) := by
  rw [← C59_inserted_x86 hc m ha, genArm, genX86]
  have hW := W_eq
  have e1 : (tb + a / 16384) % W = tb + a / 16384 := Nat.mod_eq_of_lt (by omega)
  have e2 : tb + a / 16384 - (tb + a / 16384) % 4 = tb + 4 * (a / 65536) := by omega
  rw [e1, e2, tableLoad, if_pos (by omega), Option.map_some]
  rw [show (tb + 4 * (a / 65536) - tb) / 4 = a / 65536 by omega, Nat.add_comm]

/-- The address computed for an application address is where its shadow byte lies. -/
theorem C59_translate {c : Cfg} (hc : c.Valid) {al : Alloc} (hg : al.Good c) {m : Map}
    (h : Reach c al m) (a : Nat) (hc' : view c m (nom c a) ≠ none) :
    view c m (nom c a) = some (m.mem (appToShadow c m a)) := by
  have hi := h.inv hc hg
  have hS := S_bounds hc
  have hk : nom c a = a / B * S c + scale c (a % B) := by
    have h1 := scale_split hc a
    rw [scale_small hc (Nat.le_of_lt (Nat.mod_lt _ (by rw [B_eq]; omega)))]
    rw [nom, h1]
    congr 1
    have := Umbra.scale_blk (u_valid hc) (a / B)
    rw [S_eq hc]
    exact this
  have := blk_add hc (k := a / B) (scale_off_lt hc a)
  rw [← hk] at this
  rw [appToShadow_eq hc hi]
  rw [view, this.1, this.2] at hc' ⊢
  split
  · next h' => rw [if_pos h'] at hc'; exact absurd rfl hc'
  · rfl

/-- `umbra_clear_redundant_blocks` leaves no block of its own to an entry whose shadow is all default
values. -/
theorem C59_clear {c : Cfg} (hc : c.Valid) {al : Alloc} (hg : al.Good c) {m : Map}
    (h : Reach c al m) (ht : c.onTouch = true) :
    view c (clearRedundant c m).1.1 = view c m ∧
    ∀ i, i < 65536 → (∀ t, t / S c = i → view c m t = some c.dflt) →
      ∃ p ∈ (clearRedundant c m).1.1.specials, p.1 = getBlock c (clearRedundant c m).1.1 i := by
  obtain ⟨h1, h2, h3, -, h5⟩ := clearFold hc ht (List.range 65536) m 0 (h.inv hc hg) List.nodup_range
  rw [clearRedundant, ht]
  simp only [Bool.not_true, Bool.false_eq_true, if_false]
  refine ⟨h2, fun i hi hall => ?_⟩
  rw [h3]
  rcases h5 i (List.mem_range.2 hi) with h | ⟨t, e, hne⟩
  · exact h
  · exact absurd (hall t e) hne

/-- A new shared block is refused exactly when eight others with different values exist. -/
theorem C59_new_shared {c : Cfg} (al : Alloc) (m : Map) (v : Nat) :
    (createShared c al m v).2.2 = .noMem ↔
      8 ≤ m.specials.length ∧ ∀ p ∈ m.specials, p.2 ≠ v := by
  have hl : lookupSpecial m v = none ↔ ∀ p ∈ m.specials, p.2 ≠ v := by
    rw [lookupSpecial, Option.map_eq_none_iff, List.find?_eq_none]
    simp
  rw [← hl]
  cases hc : lookupSpecial m v with
  | some b => simp [createShared, createSpecial, hc]
  | none =>
    by_cases h8 : 8 ≤ m.specials.length
    · simp [createShared, createSpecial, hc, h8]
    · cases hs : specialHelper c al m v <;> simp [createShared, createSpecial, hc, h8, hs]

end Verif.Umbra32
