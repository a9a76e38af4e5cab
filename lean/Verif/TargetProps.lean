import Verif.Target
import Verif.WalkProps

/-!
# C86: which callers a frame may have
-/
namespace Verif.Target

open Verif.Walk (back)

/-! ## Specification: the code at an address -/

/-- The bytes from `a` on can be read and are `bs`. -/
def Bytes (e : Env) : Nat → List Nat → Prop
  | _, [] => True
  | a, b :: bs => e.ok (a / 4096) = true ∧ (e.byte a).toNat = b ∧ Bytes e ((a + 1) % 2 ^ 64) bs

/-- The signed number of four bytes, lowest first. -/
def signed (b0 b1 b2 b3 : Nat) : Int :=
  let v : Int := b0 + 2 ^ 8 * b1 + 2 ^ 16 * b2 + 2 ^ 24 * b3
  if b3 < 128 then v else v - 2 ^ 32

/-- `call t` ends at `ra`: the target is relative to the end of the call. -/
def DirectCall (e : Env) (ra t : Nat) : Prop :=
  ∃ b0 b1 b2 b3, Bytes e (back ra 5) [0xe8, b0, b1, b2, b3] ∧
    (t : Int) = ((ra : Int) + signed b0 b1 b2 b3) % 2 ^ 64

/-- A jump through a pointer in memory at a 32-bit displacement: from the instruction pointer
(`ff 25`) or from a register (`ff a0`..`ff a7`). -/
def JmpMem (e : Env) (a : Nat) : Prop :=
  ∃ m, Bytes e a [0xff, m] ∧ (m = 0x25 ∨ (0xa0 ≤ m ∧ m ≤ 0xa7))

/-- `endbr64` is at `a`. -/
def Endbr (e : Env) (a : Nat) : Prop := Bytes e a [0xf3, 0x0f, 0x1e, 0xfa]

/-- The four bytes at `a` can be read. -/
def Readable4 (e : Env) (a : Nat) : Prop := ∃ b0 b1 b2 b3, Bytes e a [b0, b1, b2, b3]

/-- A stub that leads into another module, possibly after `endbr64`. -/
def Stub (e : Env) (a : Nat) : Prop :=
  (Endbr e a ∧ JmpMem e ((a + 4) % 2 ^ 64)) ∨ (Readable4 e a ∧ ¬ Endbr e a ∧ JmpMem e a)

/-- The call that ends at `ra` can lead into another module: it is no direct call, or one to a
stub. -/
def MayLeave (e : Env) (ra : Nat) : Prop :=
  (∃ b, Bytes e (back ra 5) [b] ∧ b ≠ 0xe8) ∨ ∃ t, DirectCall e ra t ∧ Stub e t

/-- Both addresses are in modules, and these are different ones. -/
def CrossModule (e : Env) (frame ra : Nat) : Prop :=
  ∃ fs ab rs ab', e.mod frame = some (fs, ab) ∧ e.mod ra = some (rs, ab') ∧ fs ≠ rs

/-- The module of the frame is one whose frame pointers are not trusted. -/
def Suspect (e : Env) (frame : Nat) : Prop := ∃ fs, e.mod frame = some (fs, true)

/-! ## Lemmas -/

theorem get_some {e : Env} {a b : Nat} :
    get e a = some b ↔ e.ok (a / 4096) = true ∧ (e.byte a).toNat = b := by
  unfold get
  cases h : e.ok (a / 4096) with
  | true => simp
  | false => simp

theorem byte_lt (e : Env) (a : Nat) : (e.byte a).toNat < 256 := (e.byte a).toNat_lt

theorem fwd_fwd (a j k : Nat) : fwd (fwd a j) k = fwd a (j + k) := by
  unfold fwd; omega

theorem bytes4 {e : Env} {a b0 b1 b2 b3 : Nat} :
    Bytes e a [b0, b1, b2, b3] ↔ get e a = some b0 ∧ get e (fwd a 1) = some b1 ∧
      get e (fwd a 2) = some b2 ∧ get e (fwd a 3) = some b3 := by
  have h2 : ((a + 1) % 2 ^ 64 + 1) % 2 ^ 64 = fwd a 2 := by unfold fwd; omega
  have h3 : (fwd a 2 + 1) % 2 ^ 64 = fwd a 3 := by unfold fwd; omega
  simp only [get_some, Bytes, h2, h3, and_true, and_assoc]
  rfl

theorem bytes2 {e : Env} {a b0 b1 : Nat} :
    Bytes e a [b0, b1] ↔ get e a = some b0 ∧ get e (fwd a 1) = some b1 := by
  simp only [get_some, Bytes, and_true, and_assoc]
  rfl

theorem bytes1 {e : Env} {a b0 : Nat} : Bytes e a [b0] ↔ get e a = some b0 := by
  simp only [get_some, Bytes, and_true]

theorem u32_some {e : Env} {a v : Nat} : u32 e a = some v ↔
    ∃ b0 b1 b2 b3, Bytes e a [b0, b1, b2, b3] ∧ v = b0 + 256 * (b1 + 256 * (b2 + 256 * b3)) := by
  simp only [bytes4]
  unfold u32
  constructor
  · intro h
    cases h0 : get e a with
    | none => rw [h0] at h; cases h
    | some b0 =>
      cases h1 : get e (fwd a 1) with
      | none => rw [h0, h1] at h; cases h
      | some b1 =>
        cases h2 : get e (fwd a 2) with
        | none => rw [h0, h1, h2] at h; cases h
        | some b2 =>
          cases h3 : get e (fwd a 3) with
          | none => rw [h0, h1, h2, h3] at h; cases h
          | some b3 =>
            rw [h0, h1, h2, h3] at h
            exact ⟨b0, b1, b2, b3, ⟨rfl, rfl, rfl, rfl⟩, (Option.some.inj h).symm⟩
  · rintro ⟨b0, b1, b2, b3, ⟨h0, h1, h2, h3⟩, rfl⟩
    rw [h0, h1, h2, h3]
    rfl

theorem get_lt {e : Env} {a b : Nat} (h : get e a = some b) : b < 256 := by
  rw [← (get_some.1 h).2]
  exact byte_lt e a

theorem endbr_iff {e : Env} {a v : Nat} (h : u32 e a = some v) : v = 0xfa1e0ff3 ↔ Endbr e a := by
  obtain ⟨b0, b1, b2, b3, hb, hv⟩ := u32_some.1 h
  have hb' := bytes4.1 hb
  have l0 := get_lt hb'.1
  have l1 := get_lt hb'.2.1
  have l2 := get_lt hb'.2.2.1
  have l3 := get_lt hb'.2.2.2
  constructor
  · intro e1
    have : b0 = 0xf3 ∧ b1 = 0x0f ∧ b2 = 0x1e ∧ b3 = 0xfa := by clear hb hb' h; omega
    obtain ⟨rfl, rfl, rfl, rfl⟩ := this
    exact hb
  · intro he
    have he' := bytes4.1 he
    rw [hb'.1, hb'.2.1, hb'.2.2.1, hb'.2.2.2] at he'
    have q0 := Option.some.inj he'.1
    have q1 := Option.some.inj he'.2.1
    have q2 := Option.some.inj he'.2.2.1
    have q3 := Option.some.inj he'.2.2.2
    clear hb hb' h he he'
    omega

theorem endbr_u32 {e : Env} {a : Nat} (h : Endbr e a) : u32 e a = some 0xfa1e0ff3 :=
  u32_some.2 ⟨_, _, _, _, h, by decide⟩

theorem readable_iff {e : Env} {a : Nat} : Readable4 e a ↔ ∃ v, u32 e a = some v := by
  constructor
  · rintro ⟨b0, b1, b2, b3, h⟩
    exact ⟨_, u32_some.2 ⟨b0, b1, b2, b3, h, rfl⟩⟩
  · rintro ⟨v, h⟩
    obtain ⟨b0, b1, b2, b3, h, -⟩ := u32_some.1 h
    exact ⟨b0, b1, b2, b3, h⟩

theorem jmpMem_iff {e : Env} {a : Nat} : JmpMem e a ↔ get e a = some 0xff ∧
    ∃ m, get e (fwd a 1) = some m ∧ (!(m >>> 3 != 0x14 && m != 0x25)) = true := by
  have key : ∀ m : Nat, (!(m >>> 3 != 0x14 && m != 0x25)) = true ↔
      (m = 0x25 ∨ (0xa0 ≤ m ∧ m ≤ 0xa7)) := by
    intro m
    have hs : m >>> 3 = m / 8 := by rw [Nat.shiftRight_eq_div_pow]
    rw [hs]
    simp only [Bool.not_eq_true', Bool.and_eq_false_iff, bne_eq_false_iff_eq]
    omega
  constructor
  · rintro ⟨m, h, hm⟩
    exact ⟨(bytes2.1 h).1, m, (bytes2.1 h).2, (key m).2 hm⟩
  · rintro ⟨h, m, h', hm⟩
    exact ⟨m, bytes2.2 ⟨h, h'⟩, (key m).1 hm⟩

theorem back_fwd {ra : Nat} (h : ra < 2 ^ 64) : (back ra 5 + 1) % 2 ^ 64 = back ra 4 := by
  have ht : Verif.Walk.two64 = 2 ^ 64 := rfl
  unfold back
  rw [ht]
  omega

theorem signed_sext {ra b0 b1 b2 b3 t : Nat} (l0 : b0 < 256) (l1 : b1 < 256) (l2 : b2 < 256)
    (l3 : b3 < 256) : (t : Int) = ((ra : Int) + signed b0 b1 b2 b3) % 2 ^ 64 ↔
      t = fwd ra (sext (b0 + 256 * (b1 + 256 * (b2 + 256 * b3)))) := by
  unfold signed fwd sext
  by_cases h : b3 < 128
  · rw [if_pos h, if_pos (by omega)]
    omega
  · rw [if_neg h, if_neg (by omega)]
    omega

theorem direct_iff {e : Env} {ra t : Nat} (hra : ra < 2 ^ 64) : DirectCall e ra t ↔
    get e (back ra 5) = some 0xe8 ∧ ∃ d, u32 e (back ra 4) = some d ∧ t = fwd ra (sext d) := by
  unfold DirectCall
  have hB : ∀ b0 b1 b2 b3, Bytes e (back ra 5) [0xe8, b0, b1, b2, b3] ↔
      get e (back ra 5) = some 0xe8 ∧ Bytes e (back ra 4) [b0, b1, b2, b3] := by
    intro b0 b1 b2 b3
    rw [get_some, ← back_fwd hra, and_assoc]
    rfl
  constructor
  · rintro ⟨b0, b1, b2, b3, h, ht⟩
    obtain ⟨h1, h2⟩ := (hB _ _ _ _).1 h
    have h4 := bytes4.1 h2
    exact ⟨h1, _, u32_some.2 ⟨_, _, _, _, h2, rfl⟩,
      (signed_sext (get_lt h4.1) (get_lt h4.2.1) (get_lt h4.2.2.1) (get_lt h4.2.2.2)).1 ht⟩
  · rintro ⟨h1, d, h2, ht⟩
    obtain ⟨b0, b1, b2, b3, h3, hd⟩ := u32_some.1 h2
    have h4 := bytes4.1 h3
    rw [hd] at ht
    exact ⟨b0, b1, b2, b3, (hB _ _ _ _).2 ⟨h1, h3⟩,
      (signed_sext (get_lt h4.1) (get_lt h4.2.1) (get_lt h4.2.2.1) (get_lt h4.2.2.2)).2 ht⟩

theorem fwd_lt (a k : Nat) : fwd a k < 2 ^ 64 := Nat.mod_lt _ (by decide)

/-- What `indirect` accepts. -/
theorem indirect_iff {e : Env} {ra : Nat} (hra : ra < 2 ^ 64) :
    (∃ pc, indirect e ra = some (pc, true)) ↔ MayLeave e ra := by
  unfold MayLeave
  simp only [bytes1]
  cases h5 : get e (back ra 5) with
  | none =>
    have : indirect e ra = none := by unfold indirect; rw [h5]; rfl
    rw [this]
    constructor
    · rintro ⟨_, h⟩; cases h
    · rintro (⟨b, h, -⟩ | ⟨t, h, -⟩)
      · cases h
      · rw [((direct_iff hra).1 h).1] at h5; cases h5
  | some op =>
    by_cases hop : ¬ op = 0xe8
    · have : indirect e ra = some (ra, true) := by
        unfold indirect; rw [h5]; exact if_neg hop
      rw [this]
      exact ⟨fun _ => .inl ⟨op, rfl, hop⟩, fun _ => ⟨ra, rfl⟩⟩
    obtain rfl := Decidable.not_not.1 hop
    cases h4 : u32 e (back ra 4) with
    | none =>
      have : indirect e ra = none := by
        unfold indirect; rw [h5, h4]; rfl
      rw [this]
      constructor
      · rintro ⟨_, h⟩; cases h
      · rintro (⟨b, h, hb⟩ | ⟨t, h, -⟩)
        · exact absurd (Option.some.inj h).symm hb
        · obtain ⟨-, d, hd, -⟩ := (direct_iff hra).1 h
          rw [h4] at hd; cases hd
    | some d =>
      have hD : ∀ t, DirectCall e ra t ↔ t = fwd ra (sext d) := by
        intro t
        rw [direct_iff hra, h4]
        constructor
        · rintro ⟨-, d', hd, ht⟩
          cases hd; exact ht
        · exact fun ht => ⟨h5, d, rfl, ht⟩
      have hR : (∃ b, some 0xe8 = some b ∧ b ≠ 0xe8 ∨ ∃ t, DirectCall e ra t ∧ Stub e t) ↔
          Stub e (fwd ra (sext d)) := by
        constructor
        · rintro ⟨b, ⟨h, hb⟩ | ⟨t, h, hs⟩⟩
          · exact absurd (Option.some.inj h).symm hb
          · rw [(hD t).1 h] at hs; exact hs
        · exact fun hs => ⟨0, .inr ⟨_, (hD _).2 rfl, hs⟩⟩
      have hR' : ((∃ b, some 0xe8 = some b ∧ b ≠ 0xe8) ∨ ∃ t, DirectCall e ra t ∧ Stub e t) ↔
          Stub e (fwd ra (sext d)) := by
        rw [← hR]
        constructor
        · rintro (⟨b, h⟩ | h)
          · exact ⟨b, .inl h⟩
          · exact ⟨0, .inr h⟩
        · rintro ⟨b, h | h⟩
          · exact .inl ⟨b, h⟩
          · exact .inr h
      rw [hR']
      generalize hT : fwd ra (sext d) = T
      cases hi : u32 e T with
      | none =>
        have : indirect e ra = none := by
          unfold indirect; rw [h5, h4]; simp [hT, hi]
        rw [this]
        constructor
        · rintro ⟨_, h⟩; cases h
        · rintro (⟨h, -⟩ | ⟨h, -⟩)
          · rw [endbr_u32 h] at hi; cases hi
          · obtain ⟨v, hv⟩ := readable_iff.1 h
            rw [hv] at hi; cases hi
      | some i =>
        have hS : Stub e T ↔ JmpMem e (if i = 0xfa1e0ff3 then fwd T 4 else T) := by
          unfold Stub
          by_cases hE : i = 0xfa1e0ff3
          · rw [if_pos hE]
            have hE' := (endbr_iff hi).1 hE
            constructor
            · rintro (⟨-, h⟩ | ⟨-, h, -⟩)
              · exact h
              · exact absurd hE' h
            · exact fun h => .inl ⟨hE', h⟩
          · rw [if_neg hE]
            have hE' : ¬ Endbr e T := fun h => hE ((endbr_iff hi).2 h)
            constructor
            · rintro (⟨h, -⟩ | ⟨-, -, h⟩)
              · exact absurd h hE'
              · exact h
            · exact fun h => .inr ⟨readable_iff.2 ⟨i, hi⟩, hE', h⟩
        rw [hS, jmpMem_iff]
        generalize hP : (if i = 0xfa1e0ff3 then fwd T 4 else T) = P
        have hI : indirect e ra = (do
            let op ← get e P
            if op ≠ 0xff then pure (P, false)
            else
              let m ← get e (fwd P 1)
              pure (P, !(m >>> 3 != 0x14 && m != 0x25))) := by
          unfold indirect
          rw [h5, h4]
          simp only [Option.bind_eq_bind, Option.bind_some, if_true, hT, hi, hP]
        rw [hI]
        cases hp : get e P with
        | none =>
          constructor
          · rintro ⟨_, h⟩; cases h
          · rintro ⟨h, -⟩; cases h
        | some op =>
          by_cases ho : op = 0xff
          · subst ho
            cases hm : get e (fwd P 1) with
            | none =>
              constructor
              · rintro ⟨_, h⟩; cases h
              · rintro ⟨-, m, h, -⟩; cases h
            | some m =>
              constructor
              · rintro ⟨pc, h⟩
                exact ⟨rfl, m, rfl, (Prod.mk.inj (Option.some.inj h)).2⟩
              · rintro ⟨-, m', h, hv⟩
                cases h
                exact ⟨P, congrArg some (Prod.ext rfl hv)⟩
          · constructor
            · rintro ⟨pc, h⟩
              simp only [Option.bind_eq_bind, Option.bind_some, if_pos ho] at h
              cases h
            · rintro ⟨h, -⟩
              exact absurd (Option.some.inj h) ho

theorem direct_unique {e : Env} {ra t t' : Nat} (hra : ra < 2 ^ 64) (h : DirectCall e ra t)
    (h' : DirectCall e ra t') : t = t' := by
  obtain ⟨-, d, hd, ht⟩ := (direct_iff hra).1 h
  obtain ⟨-, d', hd', ht'⟩ := (direct_iff hra).1 h'
  rw [hd] at hd'
  cases hd'
  rw [ht, ht']

theorem final_direct {e : Env} {frame ra t b : Nat} (hra : ra < 2 ^ 64)
    (hv : e.verify = true) (hd : DirectCall e ra t) (hb : Bytes e t [b]) (hj : b ≠ 0xff)
    (h0 : t ≠ 0) : final e frame ra = (e.offs frame != 0 && t == back frame (e.offs frame)) := by
  obtain ⟨h5, d, h4, ht⟩ := (direct_iff hra).1 hd
  have hc : callTarget e ra = some t := by
    unfold callTarget
    rw [h5, h4]
    simp only [Option.bind_eq_bind, Option.bind_some, if_true, ← ht, bytes1.1 hb, if_neg hj]
    rfl
  unfold final
  rw [hv, hc, if_neg (by simp)]
  dsimp only
  rw [if_neg h0]

theorem back_sub {f o : Nat} (hf : f < 2 ^ 64) (ho : o ≤ f) : back f o = f - o := by
  have ht : Verif.Walk.two64 = 2 ^ 64 := rfl
  unfold back
  rw [ht]
  omega

/-- Within a module, only the target of the call is looked at. -/
theorem check_same {e : Env} {frame ra : Nat} {fpWalk : Bool} (hv : e.verify = true)
    (hc : e.cross = false) (hm : ∃ m, e.mod frame = some m) (ht : e.tool frame = false)
    (hx : ¬ CrossModule e frame ra) : check e frame ra fpWalk = final e frame ra := by
  obtain ⟨⟨fs, ab⟩, hm⟩ := hm
  unfold check
  rw [hv, hc, hm, ht, if_neg (by simp)]
  dsimp only
  rw [if_neg (by simp)]
  cases hn : e.noInd with
  | true => rfl
  | false =>
    rw [if_pos (by rfl)]
    cases hr : e.mod ra with
    | none => rfl
    | some q =>
      obtain ⟨rs, ab'⟩ := q
      by_cases hfs : fs = rs
      · dsimp only
        rw [if_pos hfs]
        rfl
      · exact absurd ⟨fs, ab, rs, ab', hm, hr, hfs⟩ hx

/-! ## C86 -/

/-- C86, partial: with the flags Dr. Memory sets by default, a return address is refused exactly
if it lies in another module than the frame and the call there is a direct one that does not lead
to a stub (or cannot be read), or if frame pointers are followed out of a module whose frame
pointers are not trusted.  The same holds if targets are to be verified: across modules they are
not (`FP_VERIFY_CALL_TARGET` makes no difference).  Partial: which jumps count as stubs is
narrower than what linkers emit (`C86_bnd`), and a call is told from the fifth byte before its end
(`C86_misread`). -/
theorem C86_cross_partial {e : Env} {frame ra : Nat} {fpWalk : Bool} (hra : ra < 2 ^ 64)
    (hi : e.noInd = false) (hc : e.cross = false) (hx : CrossModule e frame ra) :
    check e frame ra fpWalk = false ↔ e.tool frame = false ∧
      ((fpWalk = true ∧ Suspect e frame) ∨ ¬ MayLeave e ra) := by
  obtain ⟨fs, ab, rs, ab', hf, hr, hne⟩ := hx
  have hS : Suspect e frame ↔ ab = true := by
    unfold Suspect
    rw [hf]
    constructor
    · rintro ⟨f, h⟩
      exact (Prod.mk.inj (Option.some.inj h)).2
    · rintro rfl
      exact ⟨fs, rfl⟩
  rw [hS, ← indirect_iff hra]
  unfold check
  rw [hi, hc, hf, hr, if_neg (by simp)]
  dsimp only
  cases ht : e.tool frame with
  | true => simp
  | false =>
    rw [if_neg (by simp), if_pos (by rfl), if_neg hne]
    cases hw : (fpWalk && ab) with
    | true =>
      rw [if_pos rfl]
      rw [Bool.and_eq_true] at hw
      exact ⟨fun _ => ⟨rfl, .inl hw⟩, fun _ => rfl⟩
    | false =>
      have hw' : ¬ (fpWalk = true ∧ ab = true) := by
        rw [← Bool.and_eq_true, hw]; simp
      rw [if_neg (by simp), if_pos (by rfl)]
      cases hI : indirect e ra with
      | none => simp
      | some q =>
        obtain ⟨pc, res⟩ := q
        dsimp only
        rw [if_pos (by simp)]
        cases res with
        | true =>
          constructor
          · intro h; cases h
          · rintro ⟨-, h | h⟩
            · exact absurd h hw'
            · exact absurd ⟨pc, rfl⟩ h
        | false =>
          refine ⟨fun _ => ⟨rfl, .inr ?_⟩, fun _ => rfl⟩
          rintro ⟨pc', h⟩
          cases h

/-- C86: by default nothing else is refused: not within a module, and not if a module is not
known. -/
theorem C86_same {e : Env} {frame ra : Nat} {fpWalk : Bool} (hv : e.verify = false)
    (hc : e.cross = false) (hx : ¬ CrossModule e frame ra) : check e frame ra fpWalk = true := by
  have hF : ∀ pc, final e frame pc = true := fun pc => by
    unfold final
    rw [hv, hc]
    rfl
  unfold check
  by_cases h1 : (e.noInd && !(e.verify || e.cross)) = true
  · rw [if_pos h1]
  rw [if_neg h1]
  cases hf : e.mod frame with
  | none => rfl
  | some q =>
    obtain ⟨fs, ab⟩ := q
    dsimp only
    cases ht : e.tool frame with
    | true => rfl
    | false =>
      rw [if_neg (by simp)]
      simp only [hF]
      by_cases h2 : (e.cross || !e.noInd) = true
      · rw [if_pos h2]
        cases hr : e.mod ra with
        | none => simp
        | some q =>
          obtain ⟨rs, ab'⟩ := q
          by_cases hfs : fs = rs
          · simp [hfs]
          · exact absurd ⟨fs, ab, rs, ab', hf, hr, hfs⟩ hx
      · rw [if_neg h2]

/-- C86: a frame of which nothing is known, or of a replaced routine, may have any caller, whatever
the flags. -/
theorem C86_unknown {e : Env} {frame ra : Nat} {fpWalk : Bool}
    (h : e.mod frame = none ∨ e.tool frame = true) : check e frame ra fpWalk = true := by
  unfold check
  by_cases h1 : (e.noInd && !(e.verify || e.cross)) = true
  · rw [if_pos h1]
  rw [if_neg h1]
  cases hf : e.mod frame with
  | none => rfl
  | some q =>
    rcases h with h | h
    · rw [hf] at h; cases h
    · dsimp only
      rw [h, if_pos rfl]

/-- C86: with all checks switched off every caller is accepted. -/
theorem C86_off {e : Env} {frame ra : Nat} {fpWalk : Bool} (hi : e.noInd = true)
    (hv : e.verify = false) (hc : e.cross = false) : check e frame ra fpWalk = true := by
  unfold check
  rw [hi, hv, hc]
  rfl

/-- C86: a call through a stub of the usual kind, with or without `endbr64`, is accepted from
another module. -/
theorem C86_stub {e : Env} {frame ra t : Nat} {fpWalk : Bool} (hra : ra < 2 ^ 64)
    (hi : e.noInd = false) (hc : e.cross = false) (hx : CrossModule e frame ra)
    (hw : fpWalk = false ∨ ¬ Suspect e frame) (hd : DirectCall e ra t) (hs : Stub e t) :
    check e frame ra fpWalk = true := by
  cases h : check e frame ra fpWalk with
  | true => rfl
  | false =>
    obtain ⟨-, ⟨h1, h2⟩ | h1⟩ := (C86_cross_partial hra hi hc hx).1 h
    · rcases hw with hw | hw
      · rw [hw] at h1; cases h1
      · exact absurd h2 hw
    · exact absurd (.inr ⟨t, hd, hs⟩) h1

/-- C86 fails for the stubs linkers emit for `-fcf-protection` with `bnd` prefixes,
`endbr64; bnd jmp *x(%rip)`: the caller is refused. -/
theorem C86_bnd {e : Env} {frame ra t : Nat} {fpWalk : Bool} (hra : ra < 2 ^ 64)
    (hi : e.noInd = false) (hc : e.cross = false) (ht : e.tool frame = false)
    (hx : CrossModule e frame ra) (hd : DirectCall e ra t) (hE : Endbr e t)
    (hb : Bytes e ((t + 4) % 2 ^ 64) [0xf2, 0xff, 0x25]) : check e frame ra fpWalk = false := by
  refine (C86_cross_partial hra hi hc hx).2 ⟨ht, .inr ?_⟩
  rintro (⟨b, h1, h2⟩ | ⟨t', h1, h2⟩)
  · have := ((direct_iff hra).1 hd).1
    rw [bytes1.1 h1] at this
    exact h2 (Option.some.inj this)
  · obtain rfl := direct_unique hra h1 hd
    rcases h2 with ⟨-, m, h, -⟩ | ⟨-, h, -⟩
    · have e1 := hb.2.1
      have e2 := h.2.1
      rw [e1] at e2
      cases e2
    · exact h hE

/-- C86: verifying targets within a module, a direct call is accepted exactly if it leads to the
start of the function of the frame. -/
theorem C86_target {e : Env} {frame ra t b : Nat} {fpWalk : Bool} (hra : ra < 2 ^ 64)
    (hfr : frame < 2 ^ 64) (ho : e.offs frame ≤ frame) (hv : e.verify = true)
    (hc : e.cross = false) (hm : ∃ m, e.mod frame = some m) (ht : e.tool frame = false)
    (hx : ¬ CrossModule e frame ra) (hd : DirectCall e ra t) (hb : Bytes e t [b]) (hj : b ≠ 0xff)
    (h0 : t ≠ 0) :
    check e frame ra fpWalk = true ↔ e.offs frame ≠ 0 ∧ t + e.offs frame = frame := by
  rw [check_same hv hc hm ht hx, final_direct hra hv hd hb hj h0, back_sub hfr ho]
  simp only [Bool.and_eq_true, bne_iff_ne, beq_iff_eq]
  omega

/-- C86 fails without symbols: although it cannot tell, the function then refuses every direct
call. -/
theorem C86_no_symbols {e : Env} {frame ra t b : Nat} {fpWalk : Bool} (hra : ra < 2 ^ 64)
    (hv : e.verify = true) (hc : e.cross = false) (hm : ∃ m, e.mod frame = some m)
    (ht : e.tool frame = false) (hx : ¬ CrossModule e frame ra) (hd : DirectCall e ra t)
    (hb : Bytes e t [b]) (hj : b ≠ 0xff) (h0 : t ≠ 0) (hs : e.offs frame = 0) :
    check e frame ra fpWalk = false := by
  rw [check_same hv hc hm ht hx, final_direct hra hv hd hb hj h0, hs]
  rfl

/-- The eight bytes at `p`, lowest first, are `t`. -/
def PtrAt (e : Env) (p t : Nat) : Prop :=
  ∃ b0 b1 b2 b3 b4 b5 b6 b7, Bytes e p [b0, b1, b2, b3, b4, b5, b6, b7] ∧
    t = b0 + 2 ^ 8 * b1 + 2 ^ 16 * b2 + 2 ^ 24 * b3 + 2 ^ 32 * b4 + 2 ^ 40 * b5 + 2 ^ 48 * b6 +
      2 ^ 56 * b7

/-- `call *x(%rip)` ends at `ra`, and the pointer is at `p`. -/
def PointerCall (e : Env) (ra p : Nat) : Prop :=
  ∃ b0 b1 b2 b3, Bytes e (back ra 6) [0xff, 0x15, b0, b1, b2, b3] ∧
    (p : Int) = ((ra : Int) + signed b0 b1 b2 b3) % 2 ^ 64

theorem bytes_append {e : Env} : ∀ (xs ys : List Nat) (a : Nat), Bytes e a (xs ++ ys) →
    Bytes e a xs ∧ (ys = [] ∨ Bytes e (if xs = [] then a else fwd a xs.length) ys) := by
  intro xs
  induction xs with
  | nil => exact fun ys a h => ⟨trivial, .inr (by rw [if_pos rfl]; exact h)⟩
  | cons x xs ih =>
    intro ys a h
    obtain ⟨h1, h2, h3⟩ := h
    obtain ⟨h4, h5⟩ := ih ys _ h3
    refine ⟨⟨h1, h2, h4⟩, h5.imp id fun h5 => ?_⟩
    rw [if_neg (by simp)]
    by_cases hx : xs = []
    · subst hx
      rw [if_pos rfl] at h5
      exact h5
    · rw [if_neg hx] at h5
      have : fwd ((a + 1) % 2 ^ 64) xs.length = fwd a (x :: xs).length := by
        have := fwd_fwd a 1 xs.length
        rw [List.length_cons, Nat.add_comm xs.length 1]
        exact this
      rw [← this]
      exact h5

theorem ptr_of {e : Env} {p t : Nat} (h : PtrAt e p t) : ptr e p = some t := by
  obtain ⟨b0, b1, b2, b3, b4, b5, b6, b7, hb, ht⟩ := h
  obtain ⟨h1, h2⟩ := bytes_append [b0, b1, b2, b3] [b4, b5, b6, b7] p hb
  rcases h2 with h2 | h2
  · cases h2
  rw [if_neg (by simp)] at h2
  have e1 := u32_some.2 ⟨b0, b1, b2, b3, h1, rfl⟩
  have e2 : u32 e (fwd p 4) = some _ := u32_some.2 ⟨b4, b5, b6, b7, h2, rfl⟩
  unfold ptr
  rw [e1, e2]
  show some _ = some _
  rw [ht]
  congr 1
  omega

theorem pointer_of {e : Env} {ra p : Nat} (hra : ra < 2 ^ 64) (h : PointerCall e ra p) :
    get e (back ra 6) = some 0xff ∧ get e (back ra 5) = some 0x15 ∧
      ∃ d, u32 e (back ra 4) = some d ∧ p = fwd ra (sext d) := by
  obtain ⟨b0, b1, b2, b3, hb, hp⟩ := h
  obtain ⟨h1, h2, h3, h4, h5⟩ := hb
  have ht : Verif.Walk.two64 = 2 ^ 64 := rfl
  have q5 : (back ra 6 + 1) % 2 ^ 64 = back ra 5 := by unfold back; rw [ht]; omega
  rw [q5] at h3 h4 h5
  rw [back_fwd hra] at h5
  have h6 := bytes4.1 h5
  exact ⟨get_some.2 ⟨h1, h2⟩, get_some.2 ⟨h3, h4⟩, _, u32_some.2 ⟨b0, b1, b2, b3, h5, rfl⟩,
    (signed_sext (get_lt h6.1) (get_lt h6.2.1) (get_lt h6.2.2.1) (get_lt h6.2.2.2)).1 hp⟩

/-- C86: verifying targets within a module, a call through a pointer is accepted exactly if the
pointer holds the start of the function of the frame; if it leads to a jump, it is accepted. -/
theorem C86_pointer {e : Env} {frame ra p t b : Nat} {fpWalk : Bool} (hra : ra < 2 ^ 64)
    (hfr : frame < 2 ^ 64) (ho : e.offs frame ≤ frame) (hv : e.verify = true)
    (hc : e.cross = false) (hm : ∃ m, e.mod frame = some m) (ht : e.tool frame = false)
    (hx : ¬ CrossModule e frame ra) (hd : PointerCall e ra p) (hp : PtrAt e p t)
    (hb : Bytes e t [b]) (h0 : t ≠ 0) :
    check e frame ra fpWalk = true ↔
      b = 0xeb ∨ b = 0xe9 ∨ (e.offs frame ≠ 0 ∧ t + e.offs frame = frame) := by
  obtain ⟨h6, h5, d, h4, hpd⟩ := pointer_of hra hd
  have hT : callTarget e ra = if b = 0xeb ∨ b = 0xe9 then some 0 else some t := by
    unfold callTarget
    rw [h5, h4]
    simp only [Option.bind_eq_bind, Option.bind_some, h6, ← hpd, ptr_of hp, bytes1.1 hb]
    rw [if_neg (by decide), if_pos (by decide)]
    rfl
  rw [check_same hv hc hm ht hx]
  unfold final
  rw [hv, hT, if_neg (by simp)]
  by_cases hj : b = 0xeb ∨ b = 0xe9
  · rw [if_pos hj]
    exact ⟨fun _ => by omega, fun _ => rfl⟩
  · rw [if_neg hj]
    dsimp only
    rw [if_neg h0, back_sub hfr ho]
    simp only [Bool.and_eq_true, bne_iff_ne, beq_iff_eq]
    omega

/-- C86: any other call within a module is accepted, as its target cannot be told. -/
theorem C86_other {e : Env} {frame ra b c : Nat} {fpWalk : Bool} (hra : ra < 2 ^ 64)
    (hv : e.verify = true) (hc : e.cross = false) (hm : ∃ m, e.mod frame = some m)
    (ht : e.tool frame = false) (hx : ¬ CrossModule e frame ra)
    (hb : Bytes e (back ra 6) [c, b]) (h1 : b ≠ 0xe8) (h2 : ¬ (c = 0xff ∧ b = 0x15)) :
    check e frame ra fpWalk = true := by
  have hw : Verif.Walk.two64 = 2 ^ 64 := rfl
  have q5 : fwd (back ra 6) 1 = back ra 5 := by unfold back fwd; rw [hw]; omega
  obtain ⟨g6, g5⟩ := bytes2.1 hb
  rw [q5] at g5
  have hT : callTarget e ra = some 0 := by
    unfold callTarget
    rw [g5, g6]
    simp only [Option.bind_eq_bind, Option.bind_some, if_neg h1, if_neg h2]
    rfl
  rw [check_same hv hc hm ht hx]
  unfold final
  rw [hT]
  simp

/-! ## Witnesses -/

/-- Two modules: 0x400000 with callers and a stub, 0x500000 with the functions called.
0x400100: `call 0x400200`; 0x400200: `endbr64; jmp *x(%rip)`; 0x400110: `call 0x400300`, which is
`endbr64; bnd jmp *x(%rip)`; 0x400120: `call 0x400400`, an ordinary function; 0x400130:
`call *(0x401000)`; 0x400140: `call 0x400500`, which is `jmp *0x10(%rip)`, the pointer at 0x400516
to the function at 0x400400; 0x400154: `call *%rax` after a byte `e8`. -/
def demoByte (a : Nat) : UInt8 :=
  match a with
  | 0x400100 => 0xe8 | 0x400101 => 0xfb
  | 0x400200 => 0xf3 | 0x400201 => 0x0f | 0x400202 => 0x1e | 0x400203 => 0xfa
  | 0x400204 => 0xff | 0x400205 => 0x25
  | 0x400110 => 0xe8 | 0x400111 => 0xeb | 0x400112 => 0x01
  | 0x400300 => 0xf3 | 0x400301 => 0x0f | 0x400302 => 0x1e | 0x400303 => 0xfa
  | 0x400304 => 0xf2 | 0x400305 => 0xff | 0x400306 => 0x25
  | 0x400120 => 0xe8 | 0x400121 => 0xdb | 0x400122 => 0x02
  | 0x400400 => 0x55
  | 0x400130 => 0xff | 0x400131 => 0x15 | 0x400132 => 0xca | 0x400133 => 0x0e
  | 0x401001 => 0x04 | 0x401002 => 0x40
  | 0x400140 => 0xe8 | 0x400141 => 0xbb | 0x400142 => 0x03
  | 0x400500 => 0xff | 0x400501 => 0x25 | 0x400502 => 0x10
  | 0x400517 => 0x04 | 0x400518 => 0x40 | 0x400510 => 0x77
  | 0x400151 => 0xe8 | 0x400154 => 0xff | 0x400155 => 0xd0
  | _ => 0

/-- The modules and symbols for `demoByte`; the function at 0x400400 is named. -/
def demo : Env where
  ok a := decide (0x400 ≤ a) && decide (a < 0x600)
  byte := demoByte
  mod a := if 0x400000 ≤ a ∧ a < 0x500000 then some (0x400000, false)
    else if 0x500000 ≤ a ∧ a < 0x600000 then some (0x500000, false) else none
  tool _ := false
  offs a := if 0x400400 ≤ a ∧ a < 0x400500 then a - 0x400400 else 0

/-- C86 fails for a stub within the module: the displacement of `jmp *x(%rip)` counts from its
end, but the function adds it to its start, and reads a wrong pointer.  Here the stub leads to the
function of the frame, and the caller is refused. -/
theorem C86_stub_start : ∃ e : Env, e.verify = true ∧ e.cross = false ∧
    DirectCall e 0x400145 0x400500 ∧ Bytes e 0x400500 [0xff, 0x25, 0x10, 0, 0, 0] ∧
    PtrAt e (0x400506 + 0x10) 0x400400 ∧ 0x400400 + e.offs 0x400408 = 0x400408 ∧
    check e 0x400408 0x400145 false = false := by
  refine ⟨{ demo with verify := true }, rfl, rfl,
    ⟨0xbb, 3, 0, 0, ?_, by decide +kernel⟩, ?_, ⟨0, 4, 0x40, 0, 0, 0, 0, 0, ?_, by decide⟩,
    by decide +kernel, by decide +kernel⟩ <;>
  simp only [Bytes] <;> decide +kernel

/-- C86 fails for a short indirect call after a byte that happens to be `e8`: it is taken for a
direct call, and refused from another module. -/
theorem C86_misread : ∃ e : Env, e.noInd = false ∧ e.verify = false ∧ e.cross = false ∧
    CrossModule e 0x500010 0x400156 ∧ Bytes e 0x400154 [0xff, 0xd0] ∧
    check e 0x500010 0x400156 false = false := by
  refine ⟨demo, rfl, rfl, rfl, ⟨0x500000, false, 0x400000, false, rfl, rfl, by decide⟩, ?_,
    by decide +kernel⟩
  simp only [Bytes]
  decide +kernel

example : CrossModule demo 0x500010 0x400105 :=
  ⟨0x500000, false, 0x400000, false, rfl, rfl, by decide⟩

example : DirectCall demo 0x400105 0x400200 ∧ Stub demo 0x400200 := by
  refine ⟨⟨0xfb, 0, 0, 0, ?_, by decide +kernel⟩, .inl ⟨?_, 0x25, ?_, .inl rfl⟩⟩ <;>
  simp only [Bytes, Endbr] <;> decide +kernel

example : DirectCall demo 0x400115 0x400300 ∧ Endbr demo 0x400300 ∧
    Bytes demo 0x400304 [0xf2, 0xff, 0x25] := by
  refine ⟨⟨0xeb, 1, 0, 0, ?_, by decide +kernel⟩, ?_, ?_⟩ <;>
  simp only [Bytes, Endbr] <;> decide +kernel

example : check demo 0x500010 0x400105 true = true ∧ check demo 0x500010 0x400115 true = false ∧
    check demo 0x500010 0x400125 true = false ∧ check demo 0x500010 0x400136 true = true ∧
    check demo 0x400010 0x400125 true = true := by decide +kernel

example : ¬ CrossModule demo 0x400408 0x400125 := by
  rintro ⟨fs, ab, rs, ab', h1, h2, h⟩
  cases h1
  cases h2
  exact h rfl

example : DirectCall demo 0x400125 0x400400 ∧ Bytes demo 0x400400 [0x55] ∧
    0x400400 + demo.offs 0x400408 = 0x400408 := by
  refine ⟨⟨0xdb, 2, 0, 0, ?_, by decide +kernel⟩, ?_, by decide +kernel⟩ <;>
  simp only [Bytes] <;> decide +kernel

example : PointerCall demo 0x400136 0x401000 ∧ PtrAt demo 0x401000 0x400400 := by
  refine ⟨⟨0xca, 0x0e, 0, 0, ?_, by decide +kernel⟩, ⟨0, 4, 0x40, 0, 0, 0, 0, 0, ?_, by decide⟩⟩ <;>
  simp only [Bytes] <;> decide +kernel

/-- With targets verified: the direct call and the call through a pointer are accepted for the
function at 0x400400 and refused for others. -/
example : let e := { demo with verify := true }
    check e 0x400408 0x400125 true = true ∧ check e 0x400408 0x400136 true = true ∧
    check e 0x400608 0x400125 true = false ∧ check e 0x400408 0x400105 true = false := by
  decide +kernel


/-- C86: a call that cannot be read is refused when targets are verified. -/
theorem C86_unreadable {e : Env} {frame ra : Nat} {fpWalk : Bool} (hv : e.verify = true)
    (hc : e.cross = false) (hm : ∃ m, e.mod frame = some m) (ht : e.tool frame = false)
    (hx : ¬ CrossModule e frame ra) (hb : e.ok (back ra 5 / 4096) = false) :
    check e frame ra fpWalk = false := by
  have hT : callTarget e ra = none := by
    unfold callTarget get
    rw [hb]
    rfl
  rw [check_same hv hc hm ht hx]
  unfold final
  rw [hv, hT]
  rfl

/-- C86: if only targets in other modules are to be verified, nothing is refused within a module
or where the module of the caller is not known. -/
theorem C86_only_cross {e : Env} {frame ra : Nat} {fpWalk : Bool} (hc : e.cross = true)
    (hx : ¬ CrossModule e frame ra) : check e frame ra fpWalk = true := by
  unfold check
  rw [hc, if_neg (by simp)]
  cases hf : e.mod frame with
  | none => rfl
  | some q =>
    obtain ⟨fs, ab⟩ := q
    dsimp only
    cases ht : e.tool frame with
    | true => rfl
    | false =>
      rw [if_neg (by simp), if_pos (by simp)]
      cases hr : e.mod ra with
      | none => rfl
      | some q =>
        obtain ⟨rs, ab'⟩ := q
        by_cases hfs : fs = rs
        · simp [hfs]
        · exact absurd ⟨fs, ab, rs, ab', hf, hr, hfs⟩ hx

/-- C86, in the walk of C84: a frame found by scanning the stack above a frame of another module
is the end of a call that can lead there. -/
theorem C86_scan {e : Env} {w : Walk.Env} {p : Walk.Tls} {fp prior r : Nat} {top : Bool}
    (hw : w.targets = check e) (hi : e.noInd = false) (hc : e.cross = false)
    (hn : w.noVerScan = false) (hp : prior ≠ 0) (ht : e.tool prior = false)
    (hb : ∀ a, w.byte a < 256) (hz : w.zeroed = false) (hl : ¬ Walk.TooLow w p fp top)
    (ha : fp % 8 = 0) (h8 : 8 ≤ fp) (hf : fp + w.scanSz < Walk.two64) (hr : 0 < r)
    (hfind : (Walk.find w p fp prior top).1 = r)
    (hx : CrossModule e prior (Walk.word w (r + 8))) : MayLeave e (Walk.word w (r + 8)) := by
  obtain ⟨k, -, hk, -, hs, -⟩ := (Walk.C84_scan hz hl ha h8 hf r hr).1 hfind
  rw [← hk] at hs
  have hlt : Walk.word w (r + 8) < 2 ^ 64 := (Walk.C84_word w (r + 8) fun i _ => hb _).1
  rcases hs.2.2 with h | h | h
  · exact absurd h hp
  · rw [hn] at h; cases h
  · rw [hw] at h
    refine Classical.byContradiction fun hm => ?_
    rw [(C86_cross_partial hlt hi hc hx).2 ⟨ht, .inr hm⟩] at h
    cases h

/-- C86 fails for `FP_VERIFY_CROSS_MODULE_TARGET` together with the check for indirect calls: after
the stub has been followed, a call is looked for before the stub, none is found, and the caller is
accepted for whatever function.  Here the stub's pointer is 0. -/
theorem C86_cross_flag : ∃ e : Env, e.cross = true ∧ e.noInd = false ∧
    CrossModule e 0x500010 0x400105 ∧ DirectCall e 0x400105 0x400200 ∧
    Bytes e 0x400204 [0xff, 0x25, 0, 0, 0, 0] ∧ PtrAt e 0x40020a 0 ∧ e.offs 0x500010 = 0x10 ∧
    check e 0x500010 0x400105 false = true := by
  refine ⟨{ demo with cross := true, offs := fun _ => 0x10 }, rfl, rfl,
    ⟨0x500000, false, 0x400000, false, rfl, rfl, by decide⟩,
    ⟨0xfb, 0, 0, 0, ?_, by decide +kernel⟩, ?_, ⟨0, 0, 0, 0, 0, 0, 0, 0, ?_, by decide⟩, rfl,
    by decide +kernel⟩ <;>
  simp only [Bytes] <;> decide +kernel

/-- The stack of `Walk.demo` with the modules of `demo`: the callers lie in one module, the frame
in another, and a scan finds the first of them. -/
def demoWalk : Walk.Env :=
  { Walk.demo with
    targets := check demo
    zeroed := false }

example : (Walk.find demoWalk {} 0x7ff000 0x500010 true).1 = 0x7feff8 ∧
    Walk.word demoWalk 0x7ff000 = 0x400105 := by decide +kernel

example : CrossModule demo 0x500010 0x400105 ∧ ¬ Walk.TooLow demoWalk {} 0x7ff000 true := by
  refine ⟨⟨0x500000, false, 0x400000, false, rfl, rfl, by decide⟩, ?_⟩
  unfold Walk.TooLow
  decide +kernel


/-- C86: verifying targets within a module, a direct call to `jmp *x(%rip)` at `t` is judged by the
pointer at `t + x`; by the meaning of the instruction it is at `t + 6 + x` (`C86_stub_start`). -/
theorem C86_stub_pointer {e : Env} {frame ra t p q b0 b1 b2 b3 : Nat} {fpWalk : Bool}
    (hra : ra < 2 ^ 64) (hfr : frame < 2 ^ 64) (ho : e.offs frame ≤ frame) (hv : e.verify = true)
    (hc : e.cross = false) (hm : ∃ m, e.mod frame = some m) (ht : e.tool frame = false)
    (hx : ¬ CrossModule e frame ra) (hd : DirectCall e ra t)
    (hj : Bytes e t [0xff, 0x25, b0, b1, b2, b3])
    (hp : (p : Int) = ((t : Int) + signed b0 b1 b2 b3) % 2 ^ 64) (hq : PtrAt e p q) :
    check e frame ra fpWalk = true ↔ q = 0 ∨ (e.offs frame ≠ 0 ∧ q + e.offs frame = frame) := by
  obtain ⟨h5, d, h4, htd⟩ := (direct_iff hra).1 hd
  obtain ⟨j1, j2⟩ := bytes_append [0xff, 0x25] [b0, b1, b2, b3] t hj
  obtain ⟨g0, g1⟩ := bytes2.1 j1
  rcases j2 with j2 | j2
  · cases j2
  rw [if_neg (by simp)] at j2
  have j4 := bytes4.1 j2
  have hu : u32 e (fwd t 2) = some _ := u32_some.2 ⟨b0, b1, b2, b3, j2, rfl⟩
  have hP := (signed_sext (ra := t) (get_lt j4.1) (get_lt j4.2.1) (get_lt j4.2.2.1)
    (get_lt j4.2.2.2)).1 hp
  have hT : callTarget e ra = some q := by
    unfold callTarget
    rw [h5, h4]
    simp only [Option.bind_eq_bind, Option.bind_some, if_true, ← htd, g0, g1, hu, ← hP, ptr_of hq]
  rw [check_same hv hc hm ht hx]
  unfold final
  rw [hv, hT, if_neg (by simp)]
  dsimp only
  by_cases h0 : q = 0
  · rw [if_pos h0]
    exact ⟨fun _ => .inl h0, fun _ => rfl⟩
  · rw [if_neg h0, back_sub hfr ho]
    simp only [Bool.and_eq_true, bne_iff_ne, beq_iff_eq]
    omega

example : DirectCall demo 0x400145 0x400500 ∧ Bytes demo 0x400500 [0xff, 0x25, 0x10, 0, 0, 0] ∧
    PtrAt demo 0x400510 0x400000000000077 := by
  refine ⟨⟨0xbb, 3, 0, 0, ?_, by decide +kernel⟩, ?_, ⟨0x77, 0, 0, 0, 0, 0, 0, 4, ?_, by decide⟩⟩ <;>
  simp only [Bytes] <;> decide +kernel

end Verif.Target
