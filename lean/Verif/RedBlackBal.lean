import Verif.RedBlackProps

/-! # Colour invariant of the interval tree (helper lemmas for C15 and C16) -/
namespace Verif.RB

/-- Every path down to a leaf has `n` black nodes. -/
def Tree.BH : Tree → Nat → Prop
  | .nil, n => n = 0
  | .node .red l _ r, n => l.BH n ∧ r.BH n
  | .node .black l _ r, n => ∃ m, n = m + 1 ∧ l.BH m ∧ r.BH m

/-- No red node has a red child. -/
def Tree.NR : Tree → Prop
  | .nil => True
  | .node c l _ r => l.NR ∧ r.NR ∧ (c = .red → l.color = .black ∧ r.color = .black)

/-- The red-black invariant. -/
def Inv (t : Tree) : Prop := t.NR ∧ (∃ n, t.BH n) ∧ t.color = .black

/-- Black height above a frame. -/
def Color.bump : Color → Nat → Nat
  | .red, n => n
  | .black, n => n + 1

/-- The path fits a subtree of black height `n`. -/
def CtxOK : List Frame → Nat → Prop
  | [], _ => True
  | f :: k, n => f.sib.BH n ∧ f.sib.NR ∧
      (f.c = .red → f.sib.color = .black ∧ ∃ g k', k = g :: k' ∧ g.c = .black) ∧
      CtxOK k (f.c.bump n)

/-- A subtree may stand at the end of the path: under a red parent or at the root it is black. -/
def Fits (t : Tree) (k : List Frame) : Prop :=
  match k with
  | [] => t.color = .black
  | f :: _ => f.c = .red → t.color = .black

theorem BH_node {c : Color} {l r : Tree} {e : Ent} {n : Nat} (hl : l.BH n) (hr : r.BH n) :
    (Tree.node c l e r).BH (c.bump n) := by
  cases c
  · exact ⟨hl, hr⟩
  · exact ⟨n, rfl, hl, hr⟩

theorem BH_node_inv {c : Color} {l r : Tree} {e : Ent} {n : Nat} (h : (Tree.node c l e r).BH n) :
    ∃ m, n = c.bump m ∧ l.BH m ∧ r.BH m := by
  cases c
  · exact ⟨n, rfl, h.1, h.2⟩
  · exact h

theorem plug_inv : ∀ (k : List Frame) (t : Tree) (n : Nat), CtxOK k n → t.BH n → t.NR → Fits t k →
    Inv (plug t k)
  | [], t, n, _, hb, hn, hf => ⟨hn, ⟨n, hb⟩, hf⟩
  | f :: k, t, n, hk, hb, hn, hf => by
    obtain ⟨h1, h2, h3, h4⟩ := hk
    show Inv (plug (f.up t) k)
    apply plug_inv k _ _ h4
    · unfold Frame.up
      split
      · exact BH_node hb h1
      · exact BH_node h1 hb
    · unfold Frame.up
      split
      · exact ⟨hn, h2, fun hc => ⟨hf hc, (h3 hc).1⟩⟩
      · exact ⟨h2, hn, fun hc => ⟨(h3 hc).1, hf hc⟩⟩
    · have hcol : (f.up t).color = f.c := by unfold Frame.up; split <;> rfl
      unfold Fits
      cases hc : f.c
      · obtain ⟨g, k', hk', hg⟩ := (h3 hc).2
        subst hk'
        simp [hg]
      · split
        · rw [hcol, hc]
        · intro _; rw [hcol, hc]

/-- A position in a red-black tree. -/
def Pos (t : Tree) (k : List Frame) (n : Nat) : Prop := CtxOK k n ∧ t.BH n ∧ t.NR ∧ Fits t k

theorem Inv.pos {t : Tree} (h : Inv t) : ∃ n, Pos t [] n := by
  obtain ⟨h1, ⟨n, h2⟩, h3⟩ := h
  exact ⟨n, trivial, h2, h1, h3⟩

theorem Pos.below {c : Color} {l r : Tree} {e : Ent} {k : List Frame} {n : Nat}
    (h : Pos (.node c l e r) k n) : ∃ m, n = c.bump m ∧ l.BH m ∧ r.BH m ∧ l.NR ∧ r.NR ∧
      (c = .red → l.color = .black ∧ r.color = .black) ∧
      (c = .red → ∃ g k', k = g :: k' ∧ g.c = .black) := by
  obtain ⟨h1, h2, ⟨h3, h4, h5⟩, h6⟩ := h
  obtain ⟨m, e1, h7, h8⟩ := BH_node_inv h2
  refine ⟨m, e1, h7, h8, h3, h4, h5, fun hc => ?_⟩
  subst hc
  unfold Fits at h6
  cases k with
  | nil => simp [Tree.color] at h6
  | cons g k' =>
    refine ⟨g, k', rfl, ?_⟩
    cases hg : g.c
    · simp [hg, Tree.color] at h6
    · rfl

theorem Pos.left {c : Color} {l r : Tree} {e : Ent} {k : List Frame} {n : Nat}
    (h : Pos (.node c l e r) k n) : ∃ m, Pos l (⟨.left, c, e, r⟩ :: k) m := by
  obtain ⟨m, e1, h1, h2, h3, h4, h5, h6⟩ := h.below
  exact ⟨m, ⟨h2, h4, fun hc => ⟨(h5 hc).2, h6 hc⟩, e1 ▸ h.1⟩, h1, h3, fun hc => (h5 hc).1⟩

theorem Pos.right {c : Color} {l r : Tree} {e : Ent} {k : List Frame} {n : Nat}
    (h : Pos (.node c l e r) k n) : ∃ m, Pos r (⟨.right, c, e, l⟩ :: k) m := by
  obtain ⟨m, e1, h1, h2, h3, h4, h5, h6⟩ := h.below
  exact ⟨m, ⟨h1, h3, fun hc => ⟨(h5 hc).1, h6 hc⟩, e1 ▸ h.1⟩, h2, h4, fun hc => (h5 hc).2⟩

theorem paint_black_of_inv {t : Tree} (h : Inv t) : Inv (t.paint .black) := by
  cases t with
  | nil => exact h
  | node c l e r =>
    have : c = .black := h.2.2
    subst this
    exact h

theorem insFix_inv : ∀ (k : List Frame) (x : Tree) (n : Nat), CtxOK k n → x.BH n → x.NR →
    x.color = .red → ∃ t, insFix x k = some t ∧ Inv (t.paint .black)
  | [], x, n, _, hb, hn, hc => by
    refine ⟨x, rfl, ?_⟩
    cases x with
    | nil => simp [Tree.color] at hc
    | node c l e r =>
      obtain ⟨m, -, h1, h2⟩ := BH_node_inv hb
      exact ⟨⟨hn.1, hn.2.1, by simp⟩, ⟨m + 1, m, rfl, h1, h2⟩, rfl⟩
  | [p], x, n, hk, hb, hn, hc => by
    unfold insFix
    obtain ⟨h1, h2, h3, h4⟩ := hk
    have hp : p.c = .black := by
      cases hp : p.c
      · obtain ⟨_, g, k', e, _⟩ := h3 hp; simp at e
      · rfl
    rw [if_neg (by simp [hp])]
    refine ⟨_, rfl, paint_black_of_inv (plug_inv _ _ n ⟨h1, h2, h3, h4⟩ hb hn ?_)⟩
    simp [Fits, hp]
  | p :: g :: k, x, n, hk, hb, hn, hc => by
    unfold insFix
    obtain ⟨h1, h2, h3, h4⟩ := hk
    split
    · rename_i hp
      obtain ⟨hs, g', k', hgk, hg⟩ := h3 hp
      have e1 : g = g' := by simpa using (List.cons.inj hgk).1
      subst e1
      obtain ⟨i1, i2, i3, i4⟩ := h4
      rw [hp] at i1
      simp only [Color.bump] at i1
      dsimp only
      rw [hp, hg] at i4
      simp only [Color.bump] at i4
      split
      · rename_i hy
        apply insFix_inv k _ (n + 1) i4
        · have hy' : (g.sib.paint .black).BH (n + 1) := by
            cases hsib : g.sib with
            | nil => simp [hsib, Tree.color] at hy
            | node c l e r =>
              rw [hsib] at i1
              obtain ⟨m, em, q1, q2⟩ := BH_node_inv i1
              have : c = .red := by simpa [hsib, Tree.color] using hy
              subst this
              simp only [Color.bump] at em
              subst em
              exact ⟨n, rfl, q1, q2⟩
          unfold Frame.up
          split <;> split
          · exact ⟨⟨n, rfl, hb, h1⟩, hy'⟩
          · exact ⟨⟨n, rfl, h1, hb⟩, hy'⟩
          · exact ⟨hy', ⟨n, rfl, hb, h1⟩⟩
          · exact ⟨hy', ⟨n, rfl, h1, hb⟩⟩
        · have hy' : (g.sib.paint .black).NR ∧ (g.sib.paint .black).color = .black := by
            cases hsib : g.sib with
            | nil => exact ⟨trivial, rfl⟩
            | node c l e r => rw [hsib] at i2; exact ⟨⟨i2.1, i2.2.1, by simp⟩, rfl⟩
          unfold Frame.up
          split <;> split
          · exact ⟨⟨hn, h2, by simp⟩, hy'.1, fun _ => ⟨rfl, hy'.2⟩⟩
          · exact ⟨⟨h2, hn, by simp⟩, hy'.1, fun _ => ⟨rfl, hy'.2⟩⟩
          · exact ⟨hy'.1, ⟨hn, h2, by simp⟩, fun _ => ⟨hy'.2, rfl⟩⟩
          · exact ⟨hy'.1, ⟨h2, hn, by simp⟩, fun _ => ⟨hy'.2, rfl⟩⟩
        · unfold Frame.up; split <;> rfl
      · rename_i hy
        have hyb : g.sib.color = .black := by
          cases h : g.sib.color
          · exact absurd h hy
          · rfl
        cases x with
        | nil => simp [Tree.color] at hc
        | node xc xl xe xr =>
        have hxc : xc = .red := hc
        subst hxc
        obtain ⟨hnl, hnr, hxx⟩ := hn
        obtain ⟨hxl, hxr⟩ := hxx rfl
        obtain ⟨hbl, hbr⟩ := hb
        cases hgd : g.dir <;> cases hpd : p.dir <;>
          simp only [hpd, Frame.up, reduceCtorEq, if_true, if_false, Option.bind_some, rotL,
            rotR, Tree.paint, hp] <;>
          refine ⟨_, rfl, paint_black_of_inv (plug_inv _ _ (n + 1) i4
            ⟨n, rfl, ?_, ?_⟩ ⟨?_, ?_, by simp⟩ ?_)⟩ <;>
          first
          | exact ⟨hbl, hbr⟩
          | exact ⟨h1, i1⟩
          | exact ⟨i1, h1⟩
          | exact ⟨h1, hbl⟩
          | exact ⟨hbr, i1⟩
          | exact ⟨hbr, h1⟩
          | exact ⟨i1, hbl⟩
          | exact ⟨hnl, hnr, fun _ => ⟨hxl, hxr⟩⟩
          | exact ⟨h2, i2, fun _ => ⟨hs, hyb⟩⟩
          | exact ⟨i2, h2, fun _ => ⟨hyb, hs⟩⟩
          | exact ⟨h2, hnl, fun _ => ⟨hs, hxl⟩⟩
          | exact ⟨hnr, i2, fun _ => ⟨hxr, hyb⟩⟩
          | exact ⟨hnr, h2, fun _ => ⟨hxr, hs⟩⟩
          | exact ⟨i2, hnl, fun _ => ⟨hyb, hxl⟩⟩
          | (unfold Fits; split <;> simp [Tree.color])
    · rename_i hp
      have hp' : p.c = .black := by
        cases h : p.c
        · exact absurd h hp
        · rfl
      refine ⟨_, rfl, paint_black_of_inv (plug_inv _ _ n ⟨h1, h2, h3, h4⟩ hb hn ?_)⟩
      simp [Fits, hp']

/-- Result of the second half of a deletion round. -/
def FixOK (pc : Color) (n : Nat) : Fix → Prop
  | .up x => x.BH (pc.bump n) ∧ (x.paint .black).NR ∧ x.color = pc
  | .done t => t.BH (pc.bump (n + 1)) ∧ t.NR ∧ t.color = pc

theorem black_of_not {c : Color} (h : ¬ c = .black) : c = .red := by cases c <;> simp_all

theorem not_red {c : Color} (h : ¬ c = .red) : c = .black := by cases c <;> simp_all

theorem paint_red_inv {t : Tree} {n : Nat} (hb : t.BH n) (hn : t.NR) (hc : t.color = .red) :
    ∃ l e r, t = .node .red l e r ∧ l.BH n ∧ r.BH n ∧ l.NR ∧ r.NR ∧ l.color = .black ∧
      r.color = .black := by
  cases t with
  | nil => simp [Tree.color] at hc
  | node c l e r =>
    have : c = .red := hc
    subst this
    exact ⟨l, e, r, rfl, hb.1, hb.2, hn.1, hn.2.1, (hn.2.2 rfl).1, (hn.2.2 rfl).2⟩

theorem fixL_ok (pc : Color) {x w : Tree} (pe : Ent) {n : Nat} (hx : x.BH n) (hxn : x.NR)
    (_hxc : x.color = .black) (hw : w.BH (n + 1)) (hwn : w.NR) (hwc : w.color = .black) :
    ∃ f, fixL pc x pe w = some f ∧ FixOK pc n f := by
  cases w with
  | nil => simp [Tree.BH] at hw
  | node wc wl we wr =>
    have : wc = .black := hwc
    subst this
    obtain ⟨m, e, hl, hr⟩ := hw
    obtain rfl : n = m := by omega
    obtain ⟨nl, nr, -⟩ := hwn
    unfold fixL
    dsimp only
    split
    · rename_i hb
      refine ⟨_, rfl, BH_node hx ⟨hl, hr⟩, ⟨hxn, ⟨nl, nr, fun _ => hb⟩, by simp⟩, rfl⟩
    · rename_i hb
      split
      · rename_i hrb
        have hlr : wl.color = .red := black_of_not (fun h => hb ⟨h, hrb⟩)
        obtain ⟨a, e, b, rfl, ha, hb', na, nb, ca, cb⟩ := paint_red_inv hl nl hlr
        simp only [Tree.paint, rotR, Option.bind_some, rotL, Option.map_some]
        refine ⟨_, rfl, BH_node ⟨n, rfl, hx, ha⟩ ⟨n, rfl, hb', hr⟩,
          ⟨⟨hxn, na, by simp⟩, ⟨nb, nr, by simp⟩, fun _ => ⟨rfl, rfl⟩⟩, rfl⟩
      · rename_i hrb
        obtain ⟨a, e, b, rfl, ha, hb', na, nb, ca, cb⟩ :=
          paint_red_inv hr nr (black_of_not hrb)
        simp only [Tree.paint, Option.bind_some, rotL, Option.map_some]
        refine ⟨_, rfl, BH_node ⟨n, rfl, hx, hl⟩ ⟨n, rfl, ha, hb'⟩,
          ⟨⟨hxn, nl, by simp⟩, ⟨na, nb, by simp⟩, fun _ => ⟨rfl, rfl⟩⟩, rfl⟩

theorem fixR_ok (pc : Color) {x w : Tree} (pe : Ent) {n : Nat} (hx : x.BH n) (hxn : x.NR)
    (_hxc : x.color = .black) (hw : w.BH (n + 1)) (hwn : w.NR) (hwc : w.color = .black) :
    ∃ f, fixR pc x pe w = some f ∧ FixOK pc n f := by
  cases w with
  | nil => simp [Tree.BH] at hw
  | node wc wl we wr =>
    have : wc = .black := hwc
    subst this
    obtain ⟨m, e, hl, hr⟩ := hw
    obtain rfl : n = m := by omega
    obtain ⟨nl, nr, -⟩ := hwn
    unfold fixR
    dsimp only
    split
    · rename_i hb
      refine ⟨_, rfl, BH_node ⟨hl, hr⟩ hx, ⟨⟨nl, nr, fun _ => hb.symm⟩, hxn, by simp⟩, rfl⟩
    · rename_i hb
      split
      · rename_i hlb
        have hrr : wr.color = .red := black_of_not (fun h => hb ⟨h, hlb⟩)
        obtain ⟨a, e, b, rfl, ha, hb', na, nb, ca, cb⟩ := paint_red_inv hr nr hrr
        simp only [Tree.paint, rotR, Option.bind_some, rotL, Option.map_some]
        refine ⟨_, rfl, BH_node ⟨n, rfl, hl, ha⟩ ⟨n, rfl, hb', hx⟩,
          ⟨⟨nl, na, by simp⟩, ⟨nb, hxn, by simp⟩, fun _ => ⟨rfl, rfl⟩⟩, rfl⟩
      · rename_i hlb
        obtain ⟨a, e, b, rfl, ha, hb', na, nb, ca, cb⟩ :=
          paint_red_inv hl nl (black_of_not hlb)
        simp only [Tree.paint, Option.bind_some, rotR, Option.map_some]
        refine ⟨_, rfl, BH_node ⟨n, rfl, ha, hb'⟩ ⟨n, rfl, hr, hx⟩,
          ⟨⟨na, nb, by simp⟩, ⟨nr, hxn, by simp⟩, fun _ => ⟨rfl, rfl⟩⟩, rfl⟩

theorem bump_comm (c : Color) (n : Nat) : c.bump (n + 1) = c.bump n + 1 := by cases c <;> rfl

theorem paint_black_BH {x : Tree} {n : Nat} (hx : x.BH n) (hc : x.color = .red) :
    (x.paint .black).BH (n + 1) := by
  cases x with
  | nil => simp [Tree.color] at hc
  | node c l e r =>
    have : c = .red := hc
    subst this
    exact ⟨n, rfl, hx.1, hx.2⟩

theorem paint_color (c : Color) (t : Tree) (h : t ≠ .nil) : (t.paint c).color = c := by
  cases t with
  | nil => exact absurd rfl h
  | node => rfl

theorem paint_black_color (t : Tree) : (t.paint .black).color = .black := by cases t <;> rfl

theorem fits_of_black {t : Tree} (k : List Frame) (h : t.color = .black) : Fits t k := by
  unfold Fits; split
  · exact h
  · exact fun _ => h

theorem NR_of_paint {x : Tree} (h : (x.paint .black).NR) (hc : x.color = .black) : x.NR := by
  cases x with
  | nil => trivial
  | node c l e r =>
    have : c = .black := hc
    subst this
    exact h

theorem fits_up {c : Color} {t : Tree} {k : List Frame} (hc : t.color = c)
    (h : c = .red → ∃ g k', k = g :: k' ∧ g.c = .black) : Fits t k := by
  cases c
  · obtain ⟨g, k', rfl, hg⟩ := h rfl
    simp [Fits, hg]
  · exact fits_of_black k hc

theorem delFix_inv : ∀ (k : List Frame) (x : Tree) (n : Nat), CtxOK k (n + 1) → x.BH n →
    (x.paint .black).NR → ∃ t, delFix x k = some t ∧ Inv t
  | [], x, n, _, hx, hn => by
    refine ⟨_, rfl, hn, ?_, paint_black_color x⟩
    cases hc : x.color
    · exact ⟨_, paint_black_BH hx hc⟩
    · cases x with
      | nil => exact ⟨0, rfl⟩
      | node c l e r =>
        have : c = .black := hc
        subst this
        exact ⟨n, hx⟩
  | p :: k, x, n, hk, hx, hn => by
    obtain ⟨h1, h2, h3, h4⟩ := hk
    unfold delFix
    split
    · rename_i hxc
      have hxn := NR_of_paint hn hxc
      have hsne : p.sib ≠ .nil := by intro h; rw [h] at h1; simp [Tree.BH] at h1
      rw [if_neg hsne]
      rw [bump_comm] at h4
      split
      · split
        · rename_i hsr
          obtain ⟨a, e, b, hsib, ha, hb, na, nb, ca, cb⟩ := paint_red_inv h1 h2 hsr
          rw [hsib]
          dsimp only
          have hpb : p.c = .black := by
            cases hp : p.c
            · rw [(h3 hp).1] at hsr; simp at hsr
            · rfl
          rw [hpb] at h4
          obtain ⟨f, e1, hf⟩ := fixL_ok .red p.e hx hxn hxc ha na ca
          rw [e1, Option.bind_some]
          have hctx : ∀ {q : Tree}, CtxOK (⟨.left, .black, e, b⟩ :: k) (n + 1) :=
            ⟨hb, nb, by simp, h4⟩
          cases f with
          | up x' =>
            refine ⟨_, rfl, plug_inv _ _ (n + 1) (hctx (q := x')) (paint_black_BH hf.1 hf.2.2)
              hf.2.1 (fits_of_black _ (paint_black_color _))⟩
          | done t =>
            refine ⟨_, rfl, paint_black_of_inv (plug_inv _ _ (n + 1) (hctx (q := t)) hf.1 hf.2.1 ?_)⟩
            simp [Fits]
        · rename_i hsr
          obtain ⟨f, e1, hf⟩ := fixL_ok p.c p.e hx hxn hxc h1 h2 (not_red hsr)
          rw [e1, Option.bind_some]
          cases f with
          | up x' => exact delFix_inv k x' _ h4 hf.1 hf.2.1
          | done t =>
            refine ⟨_, rfl, paint_black_of_inv (plug_inv _ _ _ h4 (bump_comm _ _ ▸ hf.1) hf.2.1 ?_)⟩
            exact fits_up hf.2.2 (fun h => (h3 h).2)
      · split
        · rename_i hsr
          obtain ⟨a, e, b, hsib, ha, hb, na, nb, ca, cb⟩ := paint_red_inv h1 h2 hsr
          rw [hsib]
          dsimp only
          have hpb : p.c = .black := by
            cases hp : p.c
            · rw [(h3 hp).1] at hsr; simp at hsr
            · rfl
          rw [hpb] at h4
          obtain ⟨f, e1, hf⟩ := fixR_ok .red p.e hx hxn hxc hb nb cb
          rw [e1, Option.bind_some]
          have hctx : ∀ {q : Tree}, CtxOK (⟨.right, .black, e, a⟩ :: k) (n + 1) :=
            ⟨ha, na, by simp, h4⟩
          cases f with
          | up x' =>
            refine ⟨_, rfl, plug_inv _ _ (n + 1) (hctx (q := x')) (paint_black_BH hf.1 hf.2.2)
              hf.2.1 (fits_of_black _ (paint_black_color _))⟩
          | done t =>
            refine ⟨_, rfl, paint_black_of_inv (plug_inv _ _ (n + 1) (hctx (q := t)) hf.1 hf.2.1 ?_)⟩
            simp [Fits]
        · rename_i hsr
          obtain ⟨f, e1, hf⟩ := fixR_ok p.c p.e hx hxn hxc h1 h2 (not_red hsr)
          rw [e1, Option.bind_some]
          cases f with
          | up x' => exact delFix_inv k x' _ h4 hf.1 hf.2.1
          | done t =>
            refine ⟨_, rfl, paint_black_of_inv (plug_inv _ _ _ h4 (bump_comm _ _ ▸ hf.1) hf.2.1 ?_)⟩
            exact fits_up hf.2.2 (fun h => (h3 h).2)
    · rename_i hxc
      exact ⟨_, rfl, plug_inv _ _ (n + 1) ⟨h1, h2, h3, h4⟩ (paint_black_BH hx (black_of_not hxc)) hn
        (fits_of_black _ (paint_black_color _))⟩

theorem paint_NR {x : Tree} (h : x.NR) : (x.paint .black).NR := by
  cases x with
  | nil => trivial
  | node c l e r => exact ⟨h.1, h.2.1, by simp⟩

/-- Taking out a node with at most one child. -/
theorem splice_inv {c : Color} {x : Tree} {k : List Frame} {m : Nat} (hk : CtxOK k (c.bump m))
    (hx : x.BH m) (hn : x.NR) (hb : c = .red → x.color = .black) :
    ∃ t, (if c = .black then delFix x k else some (plug x k)) = some t ∧ Inv t := by
  cases c
  · simp only [reduceCtorEq, if_false]
    exact ⟨_, rfl, plug_inv _ _ _ hk hx hn (fits_of_black _ (hb rfl))⟩
  · simp only [if_true]
    exact delFix_inv k x m hk hx (paint_NR hn)

theorem leftmost_pos : ∀ (l : Tree) (c : Color) (e : Ent) (r : Tree) (k base : List Frame)
    (n : Nat), Pos (.node c l e r) (k ++ base) n →
    match leftmost c l e r k with
    | (yc, _, yr, path) => ∃ m, CtxOK (path ++ base) (yc.bump m) ∧ yr.BH m ∧ yr.NR ∧
        (yc = .red → yr.color = .black) := by
  intro l
  induction l with
  | nil =>
    intro c e r k base n h
    obtain ⟨m, e1, h1, h2, h3, h4, h5, h6⟩ := h.below
    simp only [leftmost]
    exact ⟨m, e1 ▸ h.1, h2, h4, fun hc => (h5 hc).2⟩
  | node c' l' e' r' ih _ =>
    intro c e r k base n h
    obtain ⟨m, h'⟩ := h.left
    exact ih c' e' r' (⟨.left, c, e, r⟩ :: k) base m h'

theorem ctxOK_swap {path k : List Frame} {f g : Frame} (hc : f.c = g.c)
    (hs : f.sib = g.sib) : ∀ n, CtxOK (path ++ f :: k) n → CtxOK (path ++ g :: k) n := by
  induction path with
  | nil =>
    intro n h
    obtain ⟨h1, h2, h3, h4⟩ := h
    exact ⟨hs ▸ h1, hs ▸ h2, fun h => hs ▸ h3 (hc.trans h), hc ▸ h4⟩
  | cons p path ih =>
    intro n h
    obtain ⟨h1, h2, h3, h4⟩ := h
    refine ⟨h1, h2, fun h => ⟨(h3 h).1, ?_⟩, ih _ h4⟩
    obtain ⟨q, k', e, hq⟩ := (h3 h).2
    cases path with
    | nil =>
      exact ⟨g, k, rfl, by rw [← hc, (List.cons.inj e).1, hq]⟩
    | cons p' path =>
      exact ⟨p', path ++ g :: k, rfl, by rw [(List.cons.inj e).1, hq]⟩

theorem deleteAt_inv {c : Color} {l r : Tree} {e : Ent} {k : List Frame} {n : Nat}
    (h : Pos (.node c l e r) k n) : ∃ t, deleteAt c l r k = some t ∧ Inv t := by
  obtain ⟨m, e1, h1, h2, h3, h4, h5, h6⟩ := h.below
  unfold deleteAt
  split
  · exact splice_inv (e1 ▸ h.1) h2 h4 (fun hc => (h5 hc).2)
  · exact splice_inv (e1 ▸ h.1) h1 h3 (fun hc => (h5 hc).1)
  · rename_i rc rl re rr _
    obtain ⟨m', hr⟩ := h.right
    have hl := leftmost_pos rl rc re rr [] _ m' hr
    split
    rename_i yc ye yr path hm
    rw [hm] at hl
    obtain ⟨q, g1, g2, g3, g4⟩ := hl
    dsimp only
    exact splice_inv (ctxOK_swap (f := ⟨.right, c, e, l⟩) (g := ⟨.right, c, ye, l⟩) rfl rfl _ g1)
      g2 g3 g4

theorem deleteGo_inv (base : Nat) : ∀ (t : Tree) (k : List Frame) (n : Nat), Pos t k n →
    ∃ t', deleteGo base t k = some t' ∧ Inv t' := by
  intro t
  induction t with
  | nil => intro k n h; exact ⟨_, rfl, plug_inv _ _ n h.1 h.2.1 h.2.2.1 h.2.2.2⟩
  | node c l e r ihl ihr =>
    intro k n h
    unfold deleteGo
    split
    · exact deleteAt_inv h
    · split
      · obtain ⟨m, h'⟩ := h.left; exact ihl _ _ h'
      · obtain ⟨m, h'⟩ := h.right; exact ihr _ _ h'

theorem btInsert_pos (d : Bool) (x : Ent) : ∀ (t : Tree) (k k' : List Frame) (n : Nat), Pos t k n →
    btInsert d x t k = .inr k' → ∃ m, Pos .nil k' m := by
  intro t
  induction t with
  | nil => intro k k' n h e; simp [btInsert] at e; subst e; exact ⟨n, h⟩
  | node c l e r ihl ihr =>
    intro k k' n h he
    unfold btInsert at he
    split at he
    · simp at he
    · split at he
      · obtain ⟨m, h'⟩ := h.left; exact ihl _ _ _ h' he
      · obtain ⟨m, h'⟩ := h.right; exact ihr _ _ _ h' he

/-- Insertion succeeds and keeps the invariant. -/
theorem insert_inv (d : Bool) (x : Ent) {t : Tree} (h : Inv t) :
    ∃ r, insert d x t = some r ∧ Inv r.1 := by
  unfold insert
  split
  · exact ⟨_, rfl, h⟩
  · rename_i k hk
    obtain ⟨n, hp⟩ := h.pos
    obtain ⟨m, hm⟩ := btInsert_pos d x t [] k n hp hk
    have h0 : m = 0 := hm.2.1
    subst h0
    obtain ⟨t', e, hi⟩ := insFix_inv k (.node .red .nil x .nil) 0 hm.1 ⟨rfl, rfl⟩
      ⟨trivial, trivial, fun _ => ⟨rfl, rfl⟩⟩ rfl
    rw [e]
    exact ⟨_, rfl, hi⟩

/-- Deletion succeeds and keeps the invariant. -/
theorem delete_inv (base : Nat) {t : Tree} (h : Inv t) :
    ∃ t', delete base t = some t' ∧ Inv t' := by
  obtain ⟨n, hp⟩ := h.pos
  exact deleteGo_inv base t [] n hp

theorem nodes_ge : ∀ (t : Tree) (n : Nat), t.BH n → 2 ^ n ≤ (toList t).length + 1 := by
  intro t
  induction t with
  | nil => intro n h; have : n = 0 := h; subst this; simp [toList]
  | node c l e r ihl ihr =>
    intro n h
    cases c
    · have h1 := ihl n h.1
      simp [toList]; omega
    · obtain ⟨m, rfl, h1, h2⟩ := h
      have := ihl m h1
      have := ihr m h2
      simp [toList, Nat.pow_succ]; omega

theorem height_le : ∀ (t : Tree) (n : Nat), t.BH n → t.NR →
    height t ≤ 2 * n + (if t.color = .red then 1 else 0) := by
  intro t
  induction t with
  | nil => intro n _ _; simp [height]
  | node c l e r ihl ihr =>
    intro n h hn
    cases c
    · have h1 := ihl n h.1 hn.1
      have h2 := ihr n h.2 hn.2.1
      obtain ⟨c1, c2⟩ := hn.2.2 rfl
      rw [c1] at h1
      rw [c2] at h2
      simp [height, Tree.color] at *
      omega
    · obtain ⟨m, rfl, g1, g2⟩ := h
      have h1 := ihl m g1 hn.1
      have h2 := ihr m g2 hn.2.1
      simp only [height, Tree.color, reduceCtorEq, if_false]
      split at h1 <;> split at h2 <;> omega

end Verif.RB
