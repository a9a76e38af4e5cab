import Verif.EspFast
import Verif.Umbra32Thms
/-!
# Running the fast path: blocks of instructions, and the effect of its stores
-/
namespace Verif.EspFast
open Umbra32 (Map W W_eq getBlock view Shared Inv S)

/-- The machine gets from `x` to `y`. -/
def Reaches (p : List I) (x y : Cfg) : Prop := ∃ n, exec p n x = y

theorem Reaches.refl (p : List I) (x : Cfg) : Reaches p x x := ⟨0, rfl⟩

theorem Reaches.head {p : List I} {x y : Cfg} (h : Reaches p (step p x) y) : Reaches p x y := by
  obtain ⟨n, h⟩ := h; exact ⟨n + 1, h⟩

theorem exec_add (p : List I) (n k : Nat) : ∀ x, exec p (n + k) x = exec p k (exec p n x) := by
  induction n with
  | zero => intro x; rw [Nat.zero_add]; rfl
  | succ n ih => intro x; rw [Nat.succ_add]; exact ih _

theorem Reaches.trans {p : List I} {x y z : Cfg} (h : Reaches p x y) (h' : Reaches p y z) : Reaches p x z := by
  obtain ⟨n, h⟩ := h; obtain ⟨k, h'⟩ := h'
  exact ⟨n + k, by rw [exec_add, h, h']⟩

/-- Replace the values in the scratch registers by equal ones. -/
theorem regs {p : List I} {code : List I} {eax ecx edx ebx esp s0 s1 s2 s3 : Nat} {fl : Fl} {m : Map}
    {z : Cfg} (eax' ecx' edx' ebx' : Nat) (h1 : eax = eax') (h2 : ecx = ecx') (h3 : edx = edx')
    (h4 : ebx = ebx') (h : Reaches p (.at code ⟨eax', ecx', edx', ebx', esp, s0, s1, s2, s3, fl, m⟩) z) :
    Reaches p (.at code ⟨eax, ecx, edx, ebx, esp, s0, s1, s2, s3, fl, m⟩) z := by
  subst h1 h2 h3 h4; exact h

macro "stp" : tactic => `(tactic| (refine Reaches.head ?_; simp only [step, St.get, St.set, St.slot, St.setSlot, St.arith]))

theorem H_eq : H = 2147483648 := by unfold H; rfl

/-! ## The code at each label -/

/-- Everything after the entry. -/
def body (g : Gen) : List I := lookup ++ (popCode g ++ (nextCode g ++ (pushCode g ++ exits g)))

/-- The part after the label `loopNextShadow`. -/
def nextTail (g : Gen) : List I := (nextCode g).tail

theorem find_entry (g : Gen) (l : L) : find l (prog g) = find l (body g) := by
  have h : prog g = entry g ++ body g := by simp only [prog, body, List.append_assoc]
  rw [h]
  rcases g with ⟨ty, d, lv, u, t⟩
  cases ty <;> cases lv <;> rfl

theorem find_next (g : Gen) (l : L) (r : List I) :
    find l (nextCode g ++ r) = if l = .loopNextShadow then nextTail g ++ r else find l r := by
  rcases g with ⟨ty, d, lv, u, t⟩
  cases ty <;> rfl

theorem exits_eq (g : Gen) : exits g =
    .lbl .loopDone :: .jmp .restore :: .lbl .slowpath :: .nop :: .ld .ecx 1 :: .ld .edx 0 ::
    ((if g.ty = .negative then [.neg .ecx] else []) ++
    .ld .eax 2 :: ((if g.live then restoreFlags else []) ++ .jmpSlow false ::
     .lbl .restore :: .ld .eax 2 :: ((if g.live then restoreFlags else []) ++ [.jmpInd 0]))) := by
  simp only [exits, List.append_assoc, List.cons_append, List.nil_append]

theorem find_neg (g : Gen) (l : L) (r : List I) :
    find l ((if g.ty = .negative then [.neg .ecx] else []) ++ r) = find l r := by split <;> rfl

theorem find_flags (g : Gen) (l : L) (r : List I) :
    find l ((if g.live then restoreFlags else []) ++ r) = find l r := by split <;> rfl

macro "fnd" : tactic => `(tactic| simp only [find_entry, body, lookup, popCode, pushCode, exits_eq,
  List.cons_append, List.nil_append, find, find_next, find_neg, find_flags, reduceCtorEq, if_false, if_true])

section
variable (g : Gen)

theorem F_lookupLoop : find .loopShadowLookup (prog g) =
    .cmpi .ecx 0 :: .jcc .g .shadowLookup :: .jcc .z .loopDone :: .subi .edx 4 :: .lbl .shadowLookup ::
      find .shadowLookup (prog g) := by
  fnd

theorem F_lookup : find .shadowLookup (prog g) =
    .mov .eax .edx :: .testi .edx 3 :: .jcc .nz .slowpath ::
    .mov .ebx .edx :: .shr .ebx 16 :: .shr .edx 2 :: .addTable .edx .ebx ::
    .mov .ebx .eax :: .movzx16 .ebx :: .shr .ebx 2 :: .neg .ebx :: .add .ebx .edx ::
    .cmpi .ecx 0 :: .jcc .l .loopPush ::
    .addi .ebx blockSize :: .sub .ebx .edx :: .cmp .ebx .ecx :: .jcc .ae .popOneBlock ::
    .sub .ecx .ebx :: .xchg .ecx .ebx :: .jmp .popUnaligned :: .lbl .popOneBlock ::
      find .popOneBlock (prog g) := by
  fnd

theorem F_popOne : find .popOneBlock (prog g) =
    .zero .ebx :: .lbl .popUnaligned :: find .popUnaligned (prog g) := by
  fnd

theorem F_popUn : find .popUnaligned (prog g) =
    .test .ecx :: .jcc .z .popOneDone :: .testi .edx 3 :: .jcc .z .popAligned ::
    .st8 .edx (unaddr8 g) :: .dec .ecx :: .inc .edx :: .jmp .popUnaligned :: .lbl .popAligned ::
      find .popAligned (prog g) := by
  fnd

theorem F_popAl : find .popAligned (prog g) =
    .mov .eax .ecx :: .shr .ecx 2 :: .lbl .popAlignedLoop :: find .popAlignedLoop (prog g) := by
  fnd

theorem F_popAlLoop : find .popAlignedLoop (prog g) =
    .test .ecx :: .jcc .z .popAlignedDone ::
    .st32 .edx (unaddr32 g) :: .dec .ecx :: .addi .edx 4 :: .jmp .popAlignedLoop :: .lbl .popAlignedDone ::
      find .popAlignedDone (prog g) := by
  fnd

theorem F_popAlDone : find .popAlignedDone (prog g) =
    .mov .ecx .eax :: .andi .ecx 3 :: .lbl .popUnalignedLoop :: find .popUnalignedLoop (prog g) := by
  fnd

theorem F_popTail : find .popUnalignedLoop (prog g) =
    .test .ecx :: .jcc .z .popUnalignedDone ::
    .st8 .edx (unaddr8 g) :: .dec .ecx :: .inc .edx :: .jmp .popUnalignedLoop ::
    .lbl .popUnalignedDone :: find .popUnalignedDone (prog g) := by
  fnd

theorem F_popTailDone : find .popUnalignedDone (prog g) =
    .lbl .popOneDone :: find .popOneDone (prog g) := by
  fnd

theorem F_popDone : find .popOneDone (prog g) =
    .test .ebx :: .jcc .z .loopDone :: .mov .ecx .ebx :: .jmp .loopNextShadow ::
      .lbl .loopNextShadow :: find .loopNextShadow (prog g) := by
  fnd
  rfl

theorem F_push : find .loopPush (prog g) =
    .dec .ebx :: .sub .ebx .edx :: .cmp .ebx .ecx :: .jcc .be .pushOneBlock ::
    .sub .ecx .ebx :: .xchg .ecx .ebx :: .jmp .pushUnaligned :: .lbl .pushOneBlock ::
      find .pushOneBlock (prog g) := by
  fnd

theorem F_pushOne : find .pushOneBlock (prog g) =
    .zero .ebx :: .lbl .pushUnaligned :: find .pushUnaligned (prog g) := by
  fnd

theorem F_pushUn : find .pushUnaligned (prog g) =
    .test .ecx :: .jcc .z .pushOneDone :: .testi .edx 3 :: .jcc .z .pushAligned ::
    .st8 .edx (new8 g) :: .inc .ecx :: .dec .edx :: .jmp .pushUnaligned :: .lbl .pushAligned ::
      find .pushAligned (prog g) := by
  fnd

theorem F_pushAl : find .pushAligned (prog g) =
    .st8 .edx (new8 g) :: .inc .ecx :: .subi .edx 4 :: .neg .ecx :: .mov .eax .ecx :: .sar .ecx 2 ::
    .lbl .pushAlignedLoop :: find .pushAlignedLoop (prog g) := by
  fnd

theorem F_pushAlLoop : find .pushAlignedLoop (prog g) =
    .test .ecx :: .jcc .z .pushAlignedDone ::
    .st32 .edx (new32 g) :: .dec .ecx :: .subi .edx 4 :: .jmp .pushAlignedLoop :: .lbl .pushAlignedDone ::
      find .pushAlignedDone (prog g) := by
  fnd

theorem F_pushAlDone : find .pushAlignedDone (prog g) =
    .addi .edx 3 :: .mov .ecx .eax :: .andi .ecx 3 :: .lbl .pushUnalignedLoop ::
      find .pushUnalignedLoop (prog g) := by
  fnd

theorem F_pushTail : find .pushUnalignedLoop (prog g) =
    .test .ecx :: .jcc .z .pushUnalignedDone ::
    .st8 .edx (new8 g) :: .dec .ecx :: .dec .edx :: .jmp .pushUnalignedLoop ::
    .lbl .pushUnalignedDone :: find .pushUnalignedDone (prog g) := by
  fnd

theorem F_pushTailDone : find .pushUnalignedDone (prog g) =
    .lbl .pushOneDone :: find .pushOneDone (prog g) := by
  fnd

theorem F_pushDone : find .pushOneDone (prog g) =
    .test .ebx :: .jcc .z .loopDone :: .mov .ecx .ebx :: .jmp .loopNextShadow ::
      .lbl .loopDone :: find .loopDone (prog g) := by
  fnd

theorem F_done : find .loopDone (prog g) = .jmp .restore :: .lbl .slowpath :: find .slowpath (prog g) := by
  fnd

theorem F_restore : find .restore (prog g) =
    .ld .eax 2 :: ((if g.live then restoreFlags else []) ++ [.jmpInd 0]) := by
  fnd

theorem F_next : ∃ r, find .loopNextShadow (prog g) = nextTail g ++ r := by
  fnd
  exact ⟨_, rfl⟩

theorem F_slow : ∃ r, find .slowpath (prog g) = .nop :: .ld .ecx 1 :: .ld .edx 0 ::
    ((if g.ty = .negative then [.neg .ecx] else []) ++
    .ld .eax 2 :: ((if g.live then restoreFlags else []) ++ .jmpSlow false :: r)) := by
  fnd
  exact ⟨_, rfl⟩

end

/-! ## What stores do -/

/-- From `m` to `m'` exactly the shadow bytes with index in `P` got the value `v`; everything else about
the map is as before. -/
structure Marked (c : Umbra32.Cfg) (v : UInt8) (P : Nat → Prop) (m m' : Map) : Prop where
  inv : Inv c m'
  blk : ∀ k, getBlock c m' k = getBlock c m k
  table : m'.table = m.table
  shared : ∀ b, Shared c m' b ↔ Shared c m b
  hit : ∀ t, P t → view c m' t = some v
  miss : ∀ t, ¬ P t → view c m' t = view c m t

theorem Marked.refl {c : Umbra32.Cfg} {v : UInt8} {m : Map} (h : Inv c m) : Marked c v (fun _ => False) m m :=
  ⟨h, fun _ => rfl, rfl, fun _ => Iff.rfl, fun _ h => h.elim, fun _ _ => rfl⟩

theorem Marked.trans {c : Umbra32.Cfg} {v : UInt8} {P Q : Nat → Prop} {m m1 m2 : Map}
    (h : Marked c v P m m1) (h' : Marked c v Q m1 m2) : Marked c v (fun t => P t ∨ Q t) m m2 := by
  refine ⟨h'.inv, fun k => (h'.blk k).trans (h.blk k), h'.table.trans h.table,
    fun b => (h'.shared b).trans (h.shared b), ?_, ?_⟩
  · intro t ht
    by_cases hq : Q t
    · exact h'.hit t hq
    · rw [h'.miss t hq]
      exact h.hit t (ht.resolve_right hq)
  · intro t ht
    rw [h'.miss t (fun h => ht (Or.inr h)), h.miss t (fun h => ht (Or.inl h))]

theorem Marked.congr {c : Umbra32.Cfg} {v : UInt8} {P Q : Nat → Prop} {m m' : Map}
    (h : Marked c v P m m') (hpq : ∀ t, P t ↔ Q t) : Marked c v Q m m' :=
  ⟨h.inv, h.blk, h.table, h.shared, fun t ht => h.hit t ((hpq t).2 ht),
    fun t ht => h.miss t (fun hp => ht ((hpq t).1 hp))⟩

/-- A store of equal bytes inside the private block of entry `k`. -/
theorem store_marked {c : Umbra32.Cfg} (hc : c.Valid) {m : Map} (hi : Inv c m) {k o n : Nat} {v : UInt8}
    {f : Nat → UInt8} (hf : ∀ i, i < n → f i = v) (hns : ¬ Shared c m (getBlock c m k)) (hon : o + n ≤ S c) :
    ∃ m', Umbra32.store m (getBlock c m k + o) n f = some m' ∧
      Marked c v (fun t => k * S c + o ≤ t ∧ t < k * S c + o + n) m m' := by
  obtain ⟨m', h1, h2, -, h3, -⟩ := Umbra32.store_priv hc hi (k := k) (f := f) hns hon
  have h4 := Umbra32.store_spec h1
  refine ⟨m', h1, h2, ?_, ?_, ?_, ?_, ?_⟩
  · intro k; rw [h4]; rfl
  · rw [h4]
  · intro b; rw [h4]; exact Iff.rfl
  · intro t ht
    rw [h3]
    dsimp only
    rw [if_pos ht, hf _ (by omega)]
  · intro t ht
    rw [h3]
    dsimp only
    rw [if_neg ht]

/-- A store inside a shared block faults. -/
theorem store_shared {c : Umbra32.Cfg} {m : Map} (hi : Inv c m) {k o n : Nat}
    {f : Nat → UInt8} (hs : Shared c m (getBlock c m k)) (hn : 0 < n) (hon : o < S c) :
    Umbra32.store m (getBlock c m k + o) n f = none := by
  rw [Umbra32.store, if_neg]
  intro h
  have := h 0 hn
  rw [Nat.add_zero, hi.ro _ hs o hon] at this
  exact absurd this (by simp)

end Verif.EspFast
