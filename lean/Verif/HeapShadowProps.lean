import Verif.HeapShadow
import Verif.AllocThms
import Verif.MemRefThms

/-!
# The shadow of the heap: specification and invariant (C52)

The specification knows nothing of the allocator or of shadow memory: the heap is a list of
blocks, each with one Boolean per byte that tells whether the byte is initialised.
-/

namespace Verif.HeapShadow

open Verif.Define (Sh)
open Verif.MemRef (Conf memRef wrong Runs Kind)
open Verif.Stack (refFlags)
open Verif.Al

/-! ## Specification -/

/-- A block of the application. -/
structure Blk where
  ptr : Nat
  ini : List Bool

/-- The byte at `a` belongs to the block. -/
def Blk.In (b : Blk) (a : Nat) : Prop := b.ptr ≤ a ∧ a < b.ptr + b.ini.length

/-- The contents of the block at `p`. -/
def content : List Blk → Nat → List Bool
  | [], _ => []
  | b :: A, p => if b.ptr = p then b.ini else content A p

/-- The contents after a change of size: the common part is kept, the rest is initialised if
zeroed. -/
def resize (l : List Bool) (n : Nat) (z : Bool) : List Bool := l.take n ++ List.replicate (n - l.length) z

/-- The application's heap after a call that returned `r`, or a store. -/
def spec (A : List Blk) (op : Op) (sv : Bool) (r : Nat) : List Blk :=
  match op with
  | .alloc _ req _ zero => if r = 0 then A else ⟨r, List.replicate req zero⟩ :: A
  | .free _ p => A.filter fun b => b.ptr ≠ p
  | .realloc _ p size f =>
    if p = 0 then if r = 0 then A else ⟨r, List.replicate size f.zero⟩ :: A
    else if size = 0 ∧ f.allowEmpty = false then A.filter fun b => b.ptr ≠ p
    else if r = 0 then A
    else ⟨r, resize (content A p) size f.zero⟩ :: A.filter fun b => b.ptr ≠ p
  | .store a _ =>
    A.map fun b => if b.ptr ≤ a then { b with ini := b.ini.set (a - b.ptr) sv } else b

/-- Byte `i` of a block after a read of `[a, a + n)` that checks definedness if `d`: a byte
that was reported as uninitialised counts as initialised from then on, unless
-leave_uninit is given. -/
def seen (mc : Conf) (d : Bool) (a n : Nat) (x : Nat) (v : Bool) : Bool :=
  v || (d && ! mc.leaveUninit && decide (a ≤ x ∧ x < a + n) && ! mc.undefExc x)

/-- The application's heap after a read. -/
def specRead (mc : Conf) (A : List Blk) (d : Bool) (a n : Nat) : List Blk :=
  A.map fun b => { b with ini := b.ini.mapIdx fun i v => seen mc d a n (b.ptr + i) v }

/-- One event. -/
def specEv (mc : Conf) (A : List Blk) (e : Ev) (r : Nat) : List Blk :=
  match e with
  | .op o sv => spec A o sv r
  | .read d a n => specRead mc A d a n

/-- Addresses and sizes. -/
def led (A : List Blk) : List (Nat × Nat) := A.map fun b => (b.ptr, b.ini.length)

/-- A run of the model and of the specification. -/
def run (c : Cfg) (mc : Conf) : St → List Blk → (Nat → Sh) → List Ev → Option (St × List Blk × (Nat → Sh))
  | s, A, sh, [] => some (s, A, sh)
  | s, A, sh, e :: es =>
    match step c mc s sh e with
    | none => none
    | some (s', sh', r) => run c mc s' (specEv mc A e r) sh' es

/-- The conditions of `Verif.Al.Good` on all calls. -/
def GoodEv (c : Cfg) (s : St) (A : List Blk) : Ev → Prop
  | .op o _ => Good c s (led A) o
  | .read _ _ _ => True

/-- All events of a run satisfy the conditions. -/
def GoodEvs (c : Cfg) (mc : Conf) : St → List Blk → (Nat → Sh) → List Ev → Prop
  | _, _, _, [] => True
  | s, A, sh, e :: es => GoodEv c s A e ∧
    ∀ s' sh' r, step c mc s sh e = some (s', sh', r) → GoodEvs c mc s' (specEv mc A e r) sh' es

/-- The shadow value of an initialised or uninitialised byte. -/
def toSh (b : Bool) : Sh := if b then .defined else .undef

/-- The shadow agrees with the blocks. -/
def Agrees (A : List Blk) (sh : Nat → Sh) : Prop :=
  ∀ b ∈ A, ∀ i v, b.ini[i]? = some v → sh (b.ptr + i) = toSh v

/-- Bytes outside of all blocks that were unaddressable at the start are still so. -/
def Closed (A : List Blk) (sh0 sh : Nat → Sh) : Prop :=
  ∀ a, (∀ b ∈ A, ¬ b.In a) → sh0 a = .unaddr → sh a = .unaddr

/-! ## The effect of a change of size -/

theorem resize_length (l : List Bool) (n : Nat) (z : Bool) : (resize l n z).length = n := by
  unfold resize
  rw [List.length_append, List.length_take, List.length_replicate]
  omega

theorem setRange_apply (sh : Nat → Sh) (lo hi : Nat) (v : Sh) (a : Nat) :
    setRange false sh lo hi v a = if lo ≤ a ∧ a < hi then v else sh a := rfl

theorem copyRange_apply (sh : Nat → Sh) (old new size a : Nat) :
    copyRange false sh old new size a = if new ≤ a ∧ a < new + size then sh (old + (a - new)) else sh a :=
  rfl

/-- The shadow of new bytes. -/
def fill (z : Bool) : Sh := if z then .defined else .undef

theorem reallocNew_apply (old new : Info) (sh : Nat → Sh) (a : Nat) :
    reallocNew false old new sh a =
      if new.base ≤ a ∧ a < new.base + new.req then
        if a - new.base < old.req then sh (old.base + (a - new.base)) else fill new.zeroed
      else sh a := by
  unfold reallocNew
  rw [show (if new.zeroed = true then Sh.defined else Sh.undef) = fill new.zeroed from rfl]
  have hb : new.base = old.base → new.base ≤ a → sh (old.base + (a - new.base)) = sh a := by
    intro h h'
    congr 1
    omega
  by_cases h1 : new.req > old.req
  · rw [if_pos h1]
    by_cases h2 : new.base = old.base
    · simp only [h2, ne_eq, not_true_eq_false, if_false, setRange_apply]
      rw [h2] at hb
      repeat' split
      all_goals first | rfl | (exfalso; omega) | exact (hb rfl (by omega)).symm
    · simp only [ne_eq, h2, not_false_eq_true, if_true, setRange_apply, copyRange_apply]
      repeat' split
      all_goals first | rfl | (exfalso; omega)
  · rw [if_neg h1]
    by_cases h2 : new.base = old.base
    · simp only [h2, ne_eq, not_true_eq_false, if_false]
      rw [h2] at hb
      repeat' split
      all_goals first | rfl | (exfalso; omega) | exact (hb rfl (by omega)).symm
    · simp only [ne_eq, h2, not_false_eq_true, if_true, copyRange_apply]
      repeat' split
      all_goals first | rfl | (exfalso; omega)

theorem reallocFront_apply (old new : Info) (sh : Nat → Sh) (a : Nat) :
    reallocFront false old new sh a =
      if old.base ≤ a ∧ a < new.base ∧ a < old.base + old.req then .unaddr else sh a := by
  unfold reallocFront
  by_cases h1 : new.base > old.base
  · rw [if_pos h1, setRange_apply]
    by_cases h2 : new.base < old.base + old.req
    · rw [if_pos h2]
      repeat' split
      all_goals first | rfl | (exfalso; omega)
    · rw [if_neg h2]
      repeat' split
      all_goals first | rfl | (exfalso; omega)
  · rw [if_neg h1, if_neg (by omega)]

theorem reallocTail_apply (old new : Info) (sh : Nat → Sh) (a : Nat) :
    reallocTail false old new sh a =
      if old.base ≤ a ∧ new.base + new.req ≤ a ∧ a < old.base + old.req then .unaddr else sh a := by
  unfold reallocTail
  by_cases h1 : new.base + new.req < old.base + old.req
  · rw [if_pos h1]
    by_cases h2 : new.base + new.req < old.base
    · simp only [if_pos h2, setRange_apply]
      repeat' split
      all_goals first | rfl | (exfalso; omega)
    · simp only [if_neg h2, setRange_apply, Bool.false_eq_true, if_false]
      repeat' split
      all_goals first | rfl | (exfalso; omega)
  · rw [if_neg h1, if_neg (by omega)]

/-- C52: `client_handle_realloc` for blocks that lie in any way to each other: the common part
keeps its shadow, the rest of the new block is uninitialised (or zeroed), what only the
old block had is unaddressable, everything else is unchanged. -/
theorem C52_realloc_shadow (old new : Info) (sh : Nat → Sh) (a : Nat) :
    handleRealloc false old new sh a =
      if new.base ≤ a ∧ a < new.base + new.req then
        if a - new.base < old.req then sh (old.base + (a - new.base))
        else if new.zeroed then .defined else .undef
      else if old.base ≤ a ∧ a < old.base + old.req then .unaddr
      else sh a := by
  unfold handleRealloc
  rw [reallocTail_apply, reallocFront_apply, reallocNew_apply]
  unfold fill
  by_cases h1 : new.base ≤ a ∧ a < new.base + new.req
  · rw [if_neg (by omega), if_neg (by omega), if_pos h1, if_pos h1]
  · rw [if_neg h1, if_neg h1]
    repeat' split
    all_goals first | rfl | (exfalso; omega)

/-! ## The specification and the ledger -/

theorem led_filter (A : List Blk) (p : Nat) : led (A.filter fun b => b.ptr ≠ p) = drop (led A) p := by
  unfold led drop
  rw [List.filter_map]
  rfl

theorem led_spec (A : List Blk) (op : Op) (sv : Bool) (r : Nat) :
    led (spec A op sv r) = ledger (led A) op r := by
  cases op with
  | alloc os req align zero =>
    simp only [spec, ledger]
    split
    · rfl
    · simp [led]
  | free os p => exact led_filter A p
  | realloc os p size f =>
    simp only [spec, ledger]
    by_cases h1 : p = 0
    · rw [if_pos h1, if_pos h1]
      split
      · rfl
      · simp [led]
    · rw [if_neg h1, if_neg h1]
      by_cases h2 : size = 0 ∧ f.allowEmpty = false
      · rw [if_pos h2, if_pos h2, led_filter]
      · rw [if_neg h2, if_neg h2]
        by_cases h3 : r = 0
        · rw [if_pos h3, if_pos h3]
        · rw [if_neg h3, if_neg h3, ← led_filter]
          simp only [led, List.map_cons, resize_length]
  | store a v =>
    simp only [spec, ledger, led, List.map_map]
    apply List.map_congr_left
    intro b _
    simp only [Function.comp]
    split <;> simp

theorem led_read (mc : Conf) (A : List Blk) (d : Bool) (a n : Nat) : led (specRead mc A d a n) = led A := by
  simp only [specRead, led, List.map_map]
  apply List.map_congr_left
  intro b _
  simp

theorem mem_led {A : List Blk} {b : Blk} (h : b ∈ A) : (b.ptr, b.ini.length) ∈ led A :=
  List.mem_map.2 ⟨b, h, rfl⟩

theorem led_mem {A : List Blk} {p q : Nat} (h : (p, q) ∈ led A) : ∃ b ∈ A, b.ptr = p ∧ b.ini.length = q := by
  obtain ⟨b, hb, he⟩ := List.mem_map.1 h
  cases he
  exact ⟨b, hb, rfl, rfl⟩

theorem pairwise_or {α : Type} {R : α → α → Prop} (hs : ∀ {x y}, R x y → R y x) : ∀ {l : List α},
    l.Pairwise R → ∀ {x y}, x ∈ l → y ∈ l → x = y ∨ R x y := by
  intro l
  induction l with
  | nil => intro _ x y hx; cases hx
  | cons z l ih =>
    intro h x y hx hy
    obtain ⟨h1, h2⟩ := List.pairwise_cons.1 h
    rcases List.mem_cons.1 hx with rfl | hx' <;> rcases List.mem_cons.1 hy with rfl | hy'
    · exact Or.inl rfl
    · exact Or.inr (h1 _ hy')
    · exact Or.inr (hs (h1 _ hx'))
    · exact ih h2 hx' hy'

/-- No common byte. -/
def Sep (b : Blk) (p q : Nat) : Prop := b.ptr + b.ini.length ≤ p ∨ p + q ≤ b.ptr

variable {c : Cfg} {s : St} {A : List Blk} {Q : List (Nat × Nat)}

/-- Different blocks have no common byte and different addresses. -/
theorem apart_of (i : Inv c s (led A) Q) {b b' : Blk} (h : b ∈ A) (h' : b' ∈ A) :
    b = b' ∨ (b.ptr ≠ b'.ptr ∧ Sep b b'.ptr b'.ini.length) := by
  have hp := i.apart
  unfold led at hp
  rw [List.pairwise_map] at hp
  rcases pairwise_or (fun h => h.symm) hp h h' with h | h
  · exact Or.inl h
  · right
    have := inter_pos c
    unfold Apart at h
    unfold Sep
    dsimp only at h
    omega

theorem content_eq (i : Inv c s (led A) Q) {b : Blk} (h : b ∈ A) : content A b.ptr = b.ini := by
  have key : ∀ B : List Blk, (∀ x ∈ B, x ∈ A) → b ∈ B → content B b.ptr = b.ini := by
    intro B
    induction B with
    | nil => intro _ hb; cases hb
    | cons x B ih =>
      intro hB hb
      unfold content
      by_cases hx : x.ptr = b.ptr
      · rw [if_pos hx]
        rcases apart_of i (hB x List.mem_cons_self) h with e | ⟨e, -⟩
        · rw [e]
        · exact absurd hx e
      · rw [if_neg hx]
        rcases List.mem_cons.1 hb with rfl | hb
        · exact absurd rfl hx
        · exact ih (fun y hy => hB y (List.mem_cons_of_mem _ hy)) hb
  exact key A (fun _ h => h) h

theorem reqOf_eq (hc : CfgOk c) {L : List (Nat × Nat)} (i : Inv c s L Q) {p q : Nat} (h : (p, q) ∈ L) :
    reqOf s p = q := by
  obtain ⟨R, G, hp, hcalm, hL, rfl⟩ := i
  unfold reqOf
  rcases List.mem_append.1 (hL.mem_iff.1 h) with h1 | h1
  · obtain ⟨-, x, h2, -, h3, -, h4, -⟩ := hp.hdr_live hc h1
    rw [h2, ← h3]
  · obtain ⟨m, hm, he⟩ := List.mem_map.1 h1
    obtain ⟨-, x, h2, -, h3, -, h4⟩ := hp.hdr_map hm
    obtain ⟨e1, e2⟩ := Prod.mk.inj he
    rw [← e1, h2, ← e2, ← h3]

/-! ## The effect of the calls -/

variable {sh0 sh : Nat → Sh}

theorem in_of_get {b : Blk} {i : Nat} {v : Bool} (h : b.ini[i]? = some v) : i < b.ini.length := by
  rw [List.getElem?_eq_some_iff] at h
  exact h.1

theorem alloc_rel {r req : Nat} (z : Bool) (ha : ∀ b ∈ A, Sep b r req) (h1 : Agrees A sh) (h2 : Closed A sh0 sh) :
    Agrees (⟨r, List.replicate req z⟩ :: A) (handleMalloc false ⟨r, req, z⟩ sh) ∧
    Closed (⟨r, List.replicate req z⟩ :: A) sh0 (handleMalloc false ⟨r, req, z⟩ sh) := by
  unfold handleMalloc
  constructor
  · intro b hb i v hv
    have hi := in_of_get hv
    rw [setRange_apply]
    rcases List.mem_cons.1 hb with rfl | hb
    · dsimp only at hv hi ⊢
      rw [List.length_replicate] at hi
      rw [if_pos (by omega)]
      rw [List.getElem?_replicate, if_pos hi] at hv
      cases hv
      rfl
    · have := ha b hb
      unfold Sep at this
      rw [if_neg (by dsimp only; omega)]
      exact h1 b hb i v hv
  · intro a ha' h0
    rw [setRange_apply]
    have := ha' _ List.mem_cons_self
    unfold Blk.In at this
    dsimp only at this
    rw [List.length_replicate] at this
    rw [if_neg this]
    exact h2 a (fun b hb => ha' b (List.mem_cons_of_mem _ hb)) h0

theorem free_rel (i : Inv c s (led A) Q) {b0 : Blk} (hb0 : b0 ∈ A) (z : Bool) (h1 : Agrees A sh) (h2 : Closed A sh0 sh) :
    Agrees (A.filter fun b => b.ptr ≠ b0.ptr) (handleFree false ⟨b0.ptr, b0.ini.length, z⟩ sh) ∧
    Closed (A.filter fun b => b.ptr ≠ b0.ptr) sh0 (handleFree false ⟨b0.ptr, b0.ini.length, z⟩ sh) := by
  unfold handleFree
  constructor
  · intro b hb k v hv
    obtain ⟨hb, hne⟩ := List.mem_filter.1 hb
    have hi := in_of_get hv
    rw [setRange_apply]
    rcases apart_of i hb hb0 with e | ⟨-, hs⟩
    · simp [e] at hne
    · unfold Sep at hs
      rw [if_neg (by dsimp only; omega)]
      exact h1 b hb k v hv
  · intro a ha' h0
    rw [setRange_apply]
    dsimp only
    split
    · rfl
    · rename_i hn
      refine h2 a (fun b hb => ?_) h0
      by_cases he : b.ptr = b0.ptr
      · rcases apart_of i hb hb0 with e | ⟨e, -⟩
        · rw [e]; exact hn
        · exact absurd he e
      · exact ha' b (List.mem_filter.2 ⟨hb, by simpa using he⟩)

theorem resize_get {l : List Bool} {n : Nat} {z : Bool} {i : Nat} {v : Bool} (h : (resize l n z)[i]? = some v) :
    i < n ∧ ((i < l.length ∧ l[i]? = some v) ∨ (l.length ≤ i ∧ v = z)) := by
  have hi : i < n := by
    rw [List.getElem?_eq_some_iff] at h
    have := h.1
    rwa [resize_length] at this
  refine ⟨hi, ?_⟩
  unfold resize at h
  by_cases hl : i < l.length
  · left
    rw [List.getElem?_append_left (by rw [List.length_take]; omega), List.getElem?_take, if_pos hi] at h
    exact ⟨hl, h⟩
  · right
    rw [List.getElem?_append_right (by rw [List.length_take]; omega), List.length_take,
      List.getElem?_replicate] at h
    split at h
    · cases h; exact ⟨by omega, rfl⟩
    · cases h

theorem realloc_rel (i : Inv c s (led A) Q) {b0 : Blk} (hb0 : b0 ∈ A) {r size : Nat} (z y : Bool)
    (ha : ∀ b ∈ A, b.ptr ≠ b0.ptr → Sep b r size)
    (h1 : Agrees A sh) (h2 : Closed A sh0 sh) :
    Agrees (⟨r, resize b0.ini size z⟩ :: A.filter fun b => b.ptr ≠ b0.ptr)
      (handleRealloc false ⟨b0.ptr, b0.ini.length, y⟩ ⟨r, size, z⟩ sh) ∧
    Closed (⟨r, resize b0.ini size z⟩ :: A.filter fun b => b.ptr ≠ b0.ptr) sh0
      (handleRealloc false ⟨b0.ptr, b0.ini.length, y⟩ ⟨r, size, z⟩ sh) := by
  constructor
  · intro b hb k v hv
    rw [C52_realloc_shadow]
    dsimp only
    rcases List.mem_cons.1 hb with rfl | hb
    · obtain ⟨hk, hc⟩ := resize_get hv
      dsimp only
      rw [if_pos (by omega), show r + k - r = k by omega]
      rcases hc with ⟨h3, h4⟩ | ⟨h3, h4⟩
      · rw [if_pos h3]
        exact h1 b0 hb0 k v h4
      · rw [if_neg (by omega), h4]
        rfl
    · obtain ⟨hb, hne⟩ := List.mem_filter.1 hb
      have hi := in_of_get hv
      have hne' : b.ptr ≠ b0.ptr := by simpa using hne
      have h3 := ha b hb hne'
      rcases apart_of i hb hb0 with e | ⟨-, hs⟩
      · exact absurd (by rw [e]) hne'
      · unfold Sep at hs h3
        rw [if_neg (by omega), if_neg (by omega)]
        exact h1 b hb k v hv
  · intro a ha' h0
    rw [C52_realloc_shadow]
    have h3 := ha' _ List.mem_cons_self
    unfold Blk.In at h3
    dsimp only at h3 ⊢
    rw [resize_length] at h3
    rw [if_neg h3]
    split
    · rfl
    · rename_i hn
      refine h2 a (fun b hb => ?_) h0
      by_cases he : b.ptr = b0.ptr
      · rcases apart_of i hb hb0 with e | ⟨e, -⟩
        · rw [e]; exact hn
        · exact absurd he e
      · exact ha' b (List.mem_cons_of_mem _ (List.mem_filter.2 ⟨hb, by simpa using he⟩))

theorem store_rel (mc : Conf) (hm : mc.map4 = false) {a : Nat} {b0 : Blk} (hb0 : b0 ∈ A)
    (ha : b0.In a) (os : UInt8) (sv : Bool) (h1 : Agrees A sh) (h2 : Closed A sh0 sh) :
    Agrees (spec A (.store a os) sv 0)
      (memRef (refFlags true false) mc (fun _ => if sv then .defined else .undef) a 1 sh).sh ∧
    Closed (spec A (.store a os) sv 0) sh0
      (memRef (refFlags true false) mc (fun _ => if sv then .defined else .undef) a 1 sh).sh := by
  have hw : ∀ x, (memRef (refFlags true false) mc (fun _ => if sv then .defined else .undef) a 1 sh).sh x =
      if x = a then toSh sv else sh x := by
    intro x
    rw [MemRef.C50_write_shadow_partial (f := refFlags true false) rfl hm _ a 1 sh rfl rfl rfl
      (by intro m hm; cases hm) x]
    have hst : ∀ j, MemRef.stored (refFlags true false) (fun _ => if sv then .defined else .undef) sh j =
        toSh sv := by
      intro j
      simp [MemRef.stored, refFlags, toSh]
    rw [hst]
    obtain ⟨v, hv⟩ : ∃ v, b0.ini[a - b0.ptr]? = some v := by
      unfold Blk.In at ha
      exact ⟨_, List.getElem?_eq_getElem (by omega)⟩
    have hsh := h1 b0 hb0 _ v hv
    rw [show b0.ptr + (a - b0.ptr) = a by unfold Blk.In at ha; omega] at hsh
    by_cases hx : x = a
    · subst hx
      rw [if_pos rfl, if_pos]
      rw [hsh]
      refine ⟨Nat.le_refl _, by omega, ?_, ?_, ?_⟩ <;> cases v <;> cases sv <;> simp [toSh]
    · rw [if_neg hx, if_neg (by omega)]
  constructor
  · intro b hb k v hv
    simp only [spec] at hb
    obtain ⟨b', hb', rfl⟩ := List.mem_map.1 hb
    rw [hw]
    by_cases hle : b'.ptr ≤ a
    · rw [if_pos hle] at hv ⊢
      dsimp only at hv ⊢
      rw [List.getElem?_set] at hv
      by_cases hk : a - b'.ptr = k
      · rw [if_pos hk] at hv
        rw [if_pos (by omega)]
        split at hv
        · cases hv; rfl
        · cases hv
      · rw [if_neg hk] at hv
        rw [if_neg (by omega)]
        exact h1 b' hb' k v hv
    · rw [if_neg hle] at hv ⊢
      rw [if_neg (by omega)]
      exact h1 b' hb' k v hv
  · intro x hx h0
    have hin : ∀ b ∈ A, ¬ b.In x := by
      intro b hb hi
      simp only [spec] at hx
      refine hx _ (List.mem_map.2 ⟨b, hb, rfl⟩) ?_
      unfold Blk.In at hi ⊢
      split
      · simpa using hi
      · exact hi
    rw [hw, if_neg]
    · exact h2 x hin h0
    · intro he
      exact hin b0 hb0 (he ▸ ha)

theorem read_rel (mc : Conf) (hm : mc.map4 = false) (d : Bool) (a n : Nat) (h1 : Agrees A sh)
    (h2 : Closed A sh0 sh) :
    Agrees (specRead mc A d a n) (memRef (refFlags false d) mc (fun _ => .defined) a n sh).sh ∧
    Closed (specRead mc A d a n) sh0 (memRef (refFlags false d) mc (fun _ => .defined) a n sh).sh := by
  have hw := MemRef.C50_read_shadow (f := refFlags false d) rfl hm (fun _ => .defined) a n sh rfl rfl
  constructor
  · intro b hb k v hv
    simp only [specRead] at hb
    obtain ⟨b', hb', rfl⟩ := List.mem_map.1 hb
    dsimp only at hv ⊢
    rw [List.getElem?_mapIdx] at hv
    obtain ⟨w, hw1, hw2⟩ := Option.map_eq_some_iff.1 hv
    have hsh := h1 b' hb' k w hw1
    rw [hw, ← hw2]
    unfold seen wrong
    rw [hsh]
    cases w
    · simp only [toSh, Bool.false_eq_true, if_false, refFlags, Bool.false_or]
      cases d <;> cases mc.leaveUninit <;> cases mc.undefExc (b'.ptr + k) <;>
        by_cases h3 : a ≤ b'.ptr + k ∧ b'.ptr + k < a + n <;> simp [h3]
    · simp [toSh]
  · intro x hx h0
    have hin : ∀ b ∈ A, ¬ b.In x := by
      intro b hb hi
      simp only [specRead] at hx
      refine hx _ (List.mem_map.2 ⟨b, hb, rfl⟩) ?_
      unfold Blk.In at hi ⊢
      simpa using hi
    have hu := h2 x hin h0
    rw [hw, if_neg]
    · exact hu
    · rintro ⟨-, -, h3, -⟩
      unfold wrong at h3
      rw [hu] at h3
      dsimp only at h3
      split at h3 <;> cases h3

/-! ## One event -/

/-- The invariant. -/
structure Rel (c : Cfg) (s : St) (A : List Blk) (sh0 sh : Nat → Sh) : Prop where
  inv : ∃ Q, Inv c s (led A) Q
  agrees : Agrees A sh
  closed : Closed A sh0 sh

theorem sep_of_cons {r size : Nat} {L : List (Nat × Nat)} (i : Inv c s ((r, size) :: L) Q) :
    ∀ x ∈ L, x.1 + x.2 ≤ r ∨ r + size ≤ x.1 := by
  intro x hx
  have := (List.pairwise_cons.1 i.apart).1 x hx
  have := inter_pos c
  unfold Apart at *
  dsimp only at *
  omega

theorem filter_none' {p : Nat} (h : owns (led A) p = false) : A.filter (fun b => b.ptr ≠ p) = A := by
  rw [List.filter_eq_self]
  intro b hb
  simp only [ne_eq, decide_not, Bool.not_eq_eq_eq_not, Bool.not_true, decide_eq_false_iff_not]
  intro he
  rw [owns_iff.2 ⟨_, he ▸ mem_led hb⟩] at h
  cases h

theorem step_rel (hc : CfgOk c) {mc : Conf} (hm : mc.map4 = false) (h : Rel c s A sh0 sh) {e : Ev}
    (hg : GoodEv c s A e) :
    ∃ s' sh' r, step c mc s sh e = some (s', sh', r) ∧ Rel c s' (specEv mc A e r) sh0 sh' := by
  obtain ⟨⟨Q, i⟩, h1, h2⟩ := h
  cases e with
  | read d a n =>
    obtain ⟨h3, h4⟩ := read_rel mc hm d a n h1 h2
    exact ⟨s, _, 0, rfl, ⟨Q, by rw [specEv, led_read]; exact i⟩, h3, h4⟩
  | op o sv =>
    obtain ⟨s', r, Q', e, i', -, -⟩ := step_inv hc i hg
    rw [← led_spec A o sv r] at i'
    have i0 := i'
    have both : Agrees (spec A o sv r) (callShadow c mc s o sv s' r sh) ∧
        Closed (spec A o sv r) sh0 (callShadow c mc s o sv s' r sh) := by
      have hfree : ∀ p, Agrees (A.filter fun b => b.ptr ≠ p)
            (if isLive c s p then handleFree mc.map4 ⟨p, reqOf s p, false⟩ sh else sh) ∧
          Closed (A.filter fun b => b.ptr ≠ p) sh0
            (if isLive c s p then handleFree mc.map4 ⟨p, reqOf s p, false⟩ sh else sh) := by
        intro p
        rw [i.isLive hc p, hm]
        cases ho : owns (led A) p with
        | false =>
          rw [filter_none' ho]
          simp only [Bool.false_eq_true, if_false]
          exact ⟨h1, h2⟩
        | true =>
          obtain ⟨q, hq⟩ := owns_iff.1 ho
          obtain ⟨b0, hb0, rfl, rfl⟩ := led_mem hq
          rw [if_pos rfl, reqOf_eq hc i hq]
          exact free_rel i hb0 false h1 h2
      cases o with
      | alloc os req align zero =>
        simp only [spec, callShadow] at i' ⊢
        by_cases hr : r = 0
        · rw [if_pos hr, if_pos hr]; exact ⟨h1, h2⟩
        · rw [if_neg hr] at i'
          rw [if_neg hr, if_neg hr, hm]
          have i'' := i'
          simp only [led, List.map_cons, List.length_replicate] at i''
          rw [reqOf_eq hc i'' List.mem_cons_self]
          exact alloc_rel zero (fun b hb => sep_of_cons i'' _ (mem_led hb)) h1 h2
      | free os p =>
        simp only [spec, callShadow]
        exact hfree p
      | store a v =>
        obtain ⟨x, hx, h3, h4⟩ := hg
        obtain ⟨b0, hb0, e1, e2⟩ := led_mem (p := x.1) (q := x.2) hx
        have := store_rel (sh0 := sh0) mc hm (a := a) hb0 ⟨by omega, by omega⟩ v sv h1 h2
        exact this
      | realloc os p size f =>
        simp only [spec, callShadow] at i' ⊢
        by_cases hp : p = 0
        · simp only [if_pos hp] at i' ⊢
          by_cases hr : r = 0
          · rw [if_pos hr, if_pos hr]; exact ⟨h1, h2⟩
          · rw [if_neg hr] at i'
            rw [if_neg hr, if_neg hr, hm]
            have i'' := i'
            simp only [led, List.map_cons, List.length_replicate] at i''
            rw [reqOf_eq hc i'' List.mem_cons_self]
            exact alloc_rel f.zero (fun b hb => sep_of_cons i'' _ (mem_led hb)) h1 h2
        · simp only [if_neg hp] at i' ⊢
          by_cases he : size = 0 ∧ f.allowEmpty = false
          · simp only [if_pos he] at i' ⊢
            exact hfree p
          · simp only [if_neg he] at i' ⊢
            by_cases hr : r = 0
            · rw [if_pos hr, if_pos hr]; exact ⟨h1, h2⟩
            · rw [if_neg hr] at i'
              rw [if_neg hr, if_neg hr, hm]
              have i'' := i'
              simp only [led, List.map_cons, resize_length] at i''
              rw [reqOf_eq hc i'' List.mem_cons_self]
              cases ho : owns (led A) p with
              | false =>
                exfalso
                have hl := i.isLive hc p
                rw [ho] at hl
                simp only [Al.step, realloc, if_neg hp, if_neg he, hl, Bool.false_eq_true, if_false] at e
                exact hr (Prod.mk.inj (Prod.mk.inj (Option.some.inj e)).2).1.symm
              | true =>
                obtain ⟨q, hq⟩ := owns_iff.1 ho
                obtain ⟨b0, hb0, rfl, rfl⟩ := led_mem hq
                rw [reqOf_eq hc i hq, content_eq i hb0]
                refine realloc_rel i hb0 f.zero false (fun b hb hne => ?_) h1 h2
                exact sep_of_cons i'' _ (List.mem_map.2 ⟨b, List.mem_filter.2 ⟨hb, by simpa using hne⟩, rfl⟩)
    exact ⟨s', callShadow c mc s o sv s' r sh, r, by simp only [step, e], ⟨Q', i0⟩, both.1, both.2⟩

theorem run_rel (hc : CfgOk c) {mc : Conf} (hm : mc.map4 = false) : ∀ {es : List Ev} {s : St} {A : List Blk}
    {sh : Nat → Sh}, Rel c s A sh0 sh → GoodEvs c mc s A sh es →
    ∃ s' A' sh', run c mc s A sh es = some (s', A', sh') ∧ Rel c s' A' sh0 sh' := by
  intro es
  induction es with
  | nil => intro s A sh h _; exact ⟨s, A, sh, rfl, h⟩
  | cons e es ih =>
    intro s A sh h hg
    obtain ⟨s', sh', r, e1, h1⟩ := step_rel hc hm h hg.1
    obtain ⟨s2, A2, sh2, e2, h2⟩ := ih h1 (hg.2 s' sh' r e1)
    exact ⟨s2, A2, sh2, by simp only [run, e1, e2], h2⟩

theorem start_rel (hc : CfgOk c) {base commit : Nat} (hs : Start c base commit) (brk : Bool) (sh0 : Nat → Sh) :
    Rel c (c.init base commit brk) [] sh0 sh0 := by
  obtain ⟨s, L, F, Q, H, e, i, -⟩ := start_inv hc hs (ops := []) (brk := brk) trivial
  cases e
  exact ⟨⟨Q, i⟩, (fun b hb => by cases hb), fun a _ h => h⟩

end Verif.HeapShadow
