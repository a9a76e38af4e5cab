import Verif.RedBlack

/-! # C15-C17: the interval tree -/
namespace Verif.RB

/-! ## Specification -/

/-- The stored intervals in tree order. -/
def toList : Tree → List Ent
  | .nil => []
  | .node _ l e r => toList l ++ e :: toList r

/-- An interval the callers may store: not empty and not reaching the end of the address space. -/
def Good (e : Ent) : Prop := 0 < e.size ∧ e.base + e.size < W

/-- The address belongs to the interval. -/
def Covers (e : Ent) (a : Nat) : Prop := e.base ≤ a ∧ a < e.base + e.size

/-- Two intervals share an address. -/
def Overlap (a b : Ent) : Prop := ∃ x, Covers a x ∧ Covers b x

/-- Search-tree order. -/
def Ordered (t : Tree) : Prop := (toList t).Pairwise fun a b => a.base < b.base

/-- Height of a tree. -/
def height : Tree → Nat
  | .nil => 0
  | .node _ l _ r => 1 + max (height l) (height r)

/-! ## Order and contents -/

theorem Good.last {e : Ent} (h : Good e) : e.last = e.base + e.size :=
  Nat.mod_eq_of_lt h.2

/-- Entries left of the position. -/
def ctxL : List Frame → List Ent
  | [] => []
  | f :: k => ctxL k ++ (match f.dir with | .left => [] | .right => toList f.sib ++ [f.e])

/-- Entries right of the position. -/
def ctxR : List Frame → List Ent
  | [] => []
  | f :: k => (match f.dir with | .left => f.e :: toList f.sib | .right => []) ++ ctxR k

theorem toList_up (f : Frame) (t : Tree) : toList (f.up t) =
    (match f.dir with | .left => [] | .right => toList f.sib ++ [f.e]) ++ toList t ++
    (match f.dir with | .left => f.e :: toList f.sib | .right => []) := by
  unfold Frame.up; cases f.dir <;> simp [toList]

theorem toList_plug (k : List Frame) : ∀ t, toList (plug t k) = ctxL k ++ toList t ++ ctxR k := by
  induction k with
  | nil => intro t; simp [plug, ctxL, ctxR]
  | cons f k ih => intro t; rw [plug, ih, toList_up, ctxL, ctxR]; simp

theorem plug_congr {t u : Tree} (h : toList t = toList u) (k : List Frame) :
    toList (plug t k) = toList (plug u k) := by rw [toList_plug, toList_plug, h]

theorem toList_paint (c : Color) (t : Tree) : toList (t.paint c) = toList t := by
  cases t <;> rfl

theorem toList_rotR {t u : Tree} (h : rotR t = some u) : toList u = toList t := by
  unfold rotR at h; split at h <;> simp at h; subst h; simp [toList]

theorem toList_rotL {t u : Tree} (h : rotL t = some u) : toList u = toList t := by
  unfold rotL at h; split at h <;> simp at h; subst h; simp [toList]

theorem up_congr {f g : Frame} {t u : Tree} (hd : f.dir = g.dir) (he : f.e = g.e)
    (hs : toList f.sib = toList g.sib) (h : toList t = toList u) :
    toList (f.up t) = toList (g.up u) := by
  rw [toList_up, toList_up, hd, he, hs, h]

theorem insFix_toList : ∀ (k : List Frame) (x t : Tree), insFix x k = some t →
    toList t = toList (plug x k)
  | [], x, t, h => by simp [insFix] at h; subst h; rfl
  | [p], x, t, h => by
    unfold insFix at h; split at h <;> simp at h; subst h; rfl
  | p :: g :: k, x, t, h => by
    unfold insFix at h
    split at h
    · dsimp only at h
      split at h
      · rw [insFix_toList k _ _ h]
        show _ = toList (plug (g.up (p.up x)) k)
        apply plug_congr
        exact up_congr rfl rfl (toList_paint _ _) (up_congr rfl rfl rfl rfl)
      · split at h
        · simp only [Option.bind_eq_some_iff, Option.some.injEq] at h
          obtain ⟨pt, h1, gt, h2, h3⟩ := h
          subst h3
          show _ = toList (plug (g.up (p.up x)) k)
          apply plug_congr
          rw [toList_rotR h2]
          refine up_congr rfl rfl rfl ?_
          rw [toList_paint]
          split at h1
          · exact toList_rotL h1
          · simp at h1; rw [h1]
        · simp only [Option.bind_eq_some_iff, Option.some.injEq] at h
          obtain ⟨pt, h1, gt, h2, h3⟩ := h
          subst h3
          show _ = toList (plug (g.up (p.up x)) k)
          apply plug_congr
          rw [toList_rotL h2]
          refine up_congr rfl rfl rfl ?_
          rw [toList_paint]
          split at h1
          · exact toList_rotR h1
          · simp at h1; rw [h1]
    · simp at h; subst h; rfl

/-- Contents of the second half of a fix-up round. -/
def Fix.tree : Fix → Tree
  | .up x => x
  | .done t => t

theorem fixL_toList {pc : Color} {x w : Tree} {pe : Ent} {f : Fix} (h : fixL pc x pe w = some f) :
    toList f.tree = toList x ++ pe :: toList w := by
  unfold fixL at h
  split at h
  · simp at h
  · split at h
    · simp at h; subst h; simp [Fix.tree, toList]
    · simp only [Option.bind_eq_some_iff] at h
      obtain ⟨w', h1, h2⟩ := h
      rename_i wc wl we wr _
      have e1 : toList w' = toList (.node wc wl we wr) := by
        split at h1
        · rw [toList_rotR h1]; simp [toList, toList_paint]
        · simp at h1; rw [h1]
      split at h2
      · simp at h2
      · simp only [Option.map_eq_some_iff] at h2
        obtain ⟨t, h3, h4⟩ := h2
        subst h4
        rw [← e1]
        show toList t = _
        rw [toList_rotL h3]; simp [toList, toList_paint]

theorem fixR_toList {pc : Color} {x w : Tree} {pe : Ent} {f : Fix} (h : fixR pc x pe w = some f) :
    toList f.tree = toList w ++ pe :: toList x := by
  unfold fixR at h
  split at h
  · simp at h
  · split at h
    · simp at h; subst h; simp [Fix.tree, toList]
    · simp only [Option.bind_eq_some_iff] at h
      obtain ⟨w', h1, h2⟩ := h
      rename_i wc wl we wr _
      have e1 : toList w' = toList (.node wc wl we wr) := by
        split at h1
        · rw [toList_rotL h1]; simp [toList, toList_paint]
        · simp at h1; rw [h1]
      split at h2
      · simp at h2
      · simp only [Option.map_eq_some_iff] at h2
        obtain ⟨t, h3, h4⟩ := h2
        subst h4
        rw [← e1]
        show toList t = _
        rw [toList_rotR h3]; simp [toList, toList_paint]

theorem delFix_toList : ∀ (k : List Frame) (x t : Tree), delFix x k = some t →
    toList t = toList (plug x k)
  | [], x, t, h => by simp [delFix] at h; subst h; exact toList_paint _ _
  | p :: k, x, t, h => by
    unfold delFix at h
    split at h
    · split at h
      · simp at h
      · rename_i hs
        split at h
        · rename_i hd
          have hp : toList (p.up x) = toList x ++ p.e :: toList p.sib := by
            rw [toList_up, hd]; simp
          split at h
          · split at h
            · simp at h
            · rename_i wc wl we wr hw
              simp only [Option.bind_eq_some_iff] at h
              obtain ⟨f, h1, h2⟩ := h
              have e1 := fixL_toList h1
              have hf : toList (plug f.tree (⟨.left, .black, we, wr⟩ :: k)) =
                  toList (plug x (p :: k)) := by
                show toList (plug (Frame.up _ f.tree) k) = toList (plug (p.up x) k)
                apply plug_congr
                rw [hp, toList_up, e1, hw]; simp [toList]
              split at h2 <;> simp only [Option.some.injEq] at h2 <;> subst h2
              · rw [← hf, toList_plug, toList_paint, toList_plug]; rfl
              · rw [← hf, toList_paint]; rfl
          · simp only [Option.bind_eq_some_iff] at h
            obtain ⟨f, h1, h2⟩ := h
            have e1 := fixL_toList h1
            have hf : toList (plug f.tree k) = toList (plug x (p :: k)) := by
              show toList (plug f.tree k) = toList (plug (p.up x) k)
              apply plug_congr
              rw [hp, e1]
            split at h2
            · rw [delFix_toList k _ _ h2, ← hf]; rfl
            · simp only [Option.some.injEq] at h2; subst h2
              rw [← hf, toList_paint]; rfl
        · rename_i hd
          have hp : toList (p.up x) = toList p.sib ++ p.e :: toList x := by
            rw [toList_up, hd]; simp
          split at h
          · split at h
            · simp at h
            · rename_i wc wl we wr hw
              simp only [Option.bind_eq_some_iff] at h
              obtain ⟨f, h1, h2⟩ := h
              have e1 := fixR_toList h1
              have hf : toList (plug f.tree (⟨.right, .black, we, wl⟩ :: k)) =
                  toList (plug x (p :: k)) := by
                show toList (plug (Frame.up _ f.tree) k) = toList (plug (p.up x) k)
                apply plug_congr
                rw [hp, toList_up, e1, hw]; simp [toList]
              split at h2 <;> simp only [Option.some.injEq] at h2 <;> subst h2
              · rw [← hf, toList_plug, toList_paint, toList_plug]; rfl
              · rw [← hf, toList_paint]; rfl
          · simp only [Option.bind_eq_some_iff] at h
            obtain ⟨f, h1, h2⟩ := h
            have e1 := fixR_toList h1
            have hf : toList (plug f.tree k) = toList (plug x (p :: k)) := by
              show toList (plug f.tree k) = toList (plug (p.up x) k)
              apply plug_congr
              rw [hp, e1]
            split at h2
            · rw [delFix_toList k _ _ h2, ← hf]; rfl
            · simp only [Option.some.injEq] at h2; subst h2
              rw [← hf, toList_paint]; rfl
    · simp only [Option.some.injEq] at h; subst h
      rw [toList_plug, toList_paint, toList_plug]

theorem leftmost_toList : ∀ (l : Tree) (c : Color) (e : Ent) (r : Tree) (k : List Frame),
    match leftmost c l e r k with
    | (_, ye, yr, path) =>
      toList (plug (.node c l e r) k) = ctxL path ++ ye :: toList yr ++ ctxR path ∧
      (ctxL k = [] → ctxL path = []) := by
  intro l
  induction l with
  | nil => intro c e r k; simp [leftmost, toList_plug, toList]
  | node c' l' e' r' ih _ =>
    intro c e r k
    have := ih c' e' r' (⟨.left, c, e, r⟩ :: k)
    simp only [leftmost]
    refine ⟨?_, fun h => this.2 (by simp [ctxL, h])⟩
    rw [← this.1]
    rfl

theorem ctxL_append (a b : List Frame) : ctxL (a ++ b) = ctxL b ++ ctxL a := by
  induction a with
  | nil => simp [ctxL]
  | cons f a ih => simp [ctxL, ih]

theorem ctxR_append (a b : List Frame) : ctxR (a ++ b) = ctxR a ++ ctxR b := by
  induction a with
  | nil => simp [ctxR]
  | cons f a ih => simp [ctxR, ih]

theorem deleteAt_toList {c : Color} {l r t : Tree} {k : List Frame}
    (h : deleteAt c l r k = some t) : toList t = ctxL k ++ toList l ++ toList r ++ ctxR k := by
  have fin : ∀ {x : Tree} {k' : List Frame} {cc : Color},
      (if cc = .black then delFix x k' else some (plug x k')) = some t →
      toList t = ctxL k' ++ toList x ++ ctxR k' := by
    intro x k' cc h
    split at h
    · rw [delFix_toList _ _ _ h, toList_plug]
    · simp at h; rw [← h, toList_plug]
  unfold deleteAt at h
  split at h
  · rw [fin h]; simp [toList]
  · rw [fin h]; simp [toList]
  · rename_i l rc rl re rr _
    have hl := leftmost_toList rl rc re rr []
    split at h
    rename_i yc ye yr path hm
    rw [hm] at hl
    dsimp only at hl h
    rw [fin h, ctxL_append, ctxR_append]
    obtain ⟨h1, h2⟩ := hl
    rw [toList_plug] at h1
    have h2' := h2 rfl
    simp only [ctxL, ctxR, List.nil_append, List.append_nil, h2'] at h1 ⊢
    rw [h1]; simp

theorem deleteGo_toList (base : Nat) : ∀ (t : Tree) (k : List Frame) (t' : Tree),
    Ordered t → deleteGo base t k = some t' →
    toList t' = ctxL k ++ (toList t).filter (fun e => e.base ≠ base) ++ ctxR k := by
  intro t
  induction t with
  | nil => intro k t' _ h; simp [deleteGo] at h; rw [← h, toList_plug]; simp [toList]
  | node c l e r ihl ihr =>
    intro k t' ho h
    unfold Ordered at ho
    rw [toList, List.pairwise_append, List.pairwise_cons] at ho
    obtain ⟨h1, ⟨h2, h3⟩, h4⟩ := ho
    unfold deleteGo at h
    split at h
    · rename_i hb
      rw [deleteAt_toList h, toList, List.filter_append, List.filter_cons_of_neg (by simp [hb])]
      rw [List.filter_eq_self.2, List.filter_eq_self.2]
      · simp
      · intro x hx; have := h2 x hx; simp; omega
      · intro x hx; have := h4 x hx e (by simp); simp; omega
    · rename_i hb
      split at h
      · rename_i hlt
        rw [ihl _ _ h1 h, toList, List.filter_append, List.filter_cons_of_pos (by simp; omega)]
        rw [(List.filter_eq_self (l := toList r)).2]
        · simp [ctxL, ctxR]
        · intro x hx; have := h2 x hx; simp; omega
      · rename_i hlt
        rw [ihr _ _ h3 h, toList, List.filter_append, List.filter_cons_of_pos (by simp; omega)]
        rw [(List.filter_eq_self (l := toList l)).2]
        · simp [ctxL, ctxR]
        · intro x hx; have := h4 x hx e (by simp); simp; omega

theorem btInsert_inl {d : Bool} {n : Ent} : ∀ (t : Tree) (k : List Frame) (e : Ent),
    btInsert d n t k = .inl e → e ∈ toList t ∧ inTheWay d n e = true := by
  intro t
  induction t with
  | nil => intro k e h; simp [btInsert] at h
  | node c l e' r ihl ihr =>
    intro k e h
    unfold btInsert at h
    split at h
    · rename_i hc
      simp only [Sum.inl.injEq] at h; subst h
      exact ⟨by simp [toList], hc⟩
    · split at h
      · have := ihl _ _ h; exact ⟨by simp [toList, this.1], this.2⟩
      · have := ihr _ _ h; exact ⟨by simp [toList, this.1], this.2⟩

/-- Where a new node goes: the tree contents split around it. -/
theorem btInsert_inr {d : Bool} {n : Ent} : ∀ (t : Tree) (k k' : List Frame), Ordered t →
    btInsert d n t k = .inr k' →
    ∃ a b, toList t = a ++ b ∧ ctxL k' = ctxL k ++ a ∧ ctxR k' = b ++ ctxR k ∧
      (d = false → (∀ e ∈ a, e.base < n.base) ∧ (∀ e ∈ b, n.base < e.base)) ∧
      (Good n → (∀ e ∈ toList t, Good e) →
        (∀ e ∈ a, e.base < n.base) ∧ (∀ e ∈ b, n.base < e.base)) := by
  intro t
  induction t with
  | nil =>
    intro k k' _ h
    simp [btInsert] at h; subst h
    exact ⟨[], [], by simp [toList], by simp, by simp, by simp, by simp⟩
  | node c l e' r ihl ihr =>
    intro k k' ho h
    unfold Ordered at ho
    rw [toList, List.pairwise_append, List.pairwise_cons] at ho
    obtain ⟨h1, ⟨h2, h3⟩, h4⟩ := ho
    unfold btInsert at h
    split at h
    · simp at h
    rename_i hc
    split at h
    · rename_i hlt
      obtain ⟨a, b, e1, e2, e3, e4, e5⟩ := ihl _ _ h1 h
      refine ⟨a, b ++ e' :: toList r, by simp [toList, e1], by simp [e2, ctxL], by simp [e3, ctxR],
        ?_, ?_⟩
      · intro hd
        obtain ⟨q1, q2⟩ := e4 hd
        refine ⟨q1, ?_⟩
        intro e he
        simp only [List.mem_append, List.mem_cons] at he
        rcases he with he | rfl | he
        · exact q2 e he
        · exact hlt
        · have := h2 e he; omega
      · intro hg hall
        obtain ⟨q1, q2⟩ := e5 hg (fun e he => hall e (by simp [toList, he]))
        refine ⟨q1, ?_⟩
        intro e he
        simp only [List.mem_append, List.mem_cons] at he
        rcases he with he | rfl | he
        · exact q2 e he
        · exact hlt
        · have := h2 e he; omega
    · rename_i hlt
      obtain ⟨a, b, e1, e2, e3, e4, e5⟩ := ihr _ _ h3 h
      refine ⟨toList l ++ e' :: a, b, by simp [toList, e1], by simp [e2, ctxL], by simp [e3, ctxR],
        ?_, ?_⟩
      · intro hd
        obtain ⟨q1, q2⟩ := e4 hd
        refine ⟨?_, q2⟩
        have hne : n.base ≠ e'.base := by simpa [hd, inTheWay] using hc
        intro e he
        simp only [List.mem_append, List.mem_cons] at he
        rcases he with he | rfl | he
        · have := h4 e he e' (by simp); omega
        · omega
        · exact q1 e he
      · intro hg hall
        obtain ⟨q1, q2⟩ := e5 hg (fun e he => hall e (by simp [toList, he]))
        refine ⟨?_, q2⟩
        have hge := hall e' (by simp [toList])
        have hne : n.base ≠ e'.base := by
          intro heq
          apply hc
          unfold inTheWay
          rw [hg.last, hge.last]
          have := hg.1
          cases d <;> simp <;> omega
        intro e he
        simp only [List.mem_append, List.mem_cons] at he
        rcases he with he | rfl | he
        · have := h4 e he e' (by simp); omega
        · omega
        · exact q1 e he

end Verif.RB
