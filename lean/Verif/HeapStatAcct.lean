import Verif.HeapStatSpread

/-!
# C68: helper lemmas about the counters of the snapshot in progress
-/

namespace Verif.HeapStat

/-- The live blocks of one call stack. -/
def ofCs (cs : Nat) (l : List Blk) : List Blk := l.filter (fun b => b.cs == cs)

/-- The node that the blocks of one call stack should have: `uint` and `ushort` counters. -/
def expected (hdr cs : Nat) (l : List Blk) : List Ent :=
  if (ofCs cs l).length = 0 then []
  else [{ cs := cs
          inst := ((ofCs cs l).length : Int) % 4294967296
          asked := (total Blk.req (ofCs cs l) : Int) % 4294967296
          extraU := (total Blk.pad (ofCs cs l) : Int) % 65536
          extraO := ((hdr * (ofCs cs l).length : Nat) : Int) % 65536 }]

/-- The counters of a snapshot belong to the live blocks `l`.  The specification of "space
allocated" is the sum of `pad`; the code adds the space requested once more. -/
structure Exact (hdr : Nat) (l : List Blk) (x : Snap) : Prop where
  asked : x.asked = (total Blk.req l : Int)
  usable : x.usable = (total Blk.req l : Int) + (total Blk.pad l : Int)
  occupied : x.occupied = (total Blk.req l : Int) + (total Blk.pad l : Int) + ((hdr * l.length : Nat) : Int)
  nodes : ∀ cs, x.used.filter (fun e => e.cs == cs) = expected hdr cs l

/-- The nodes of a call stack. -/
def ents (cs : Nat) (l : List Ent) : List Ent := l.filter (fun e => e.cs == cs)

theorem hasEnt_iff (cs : Nat) (l : List Ent) : hasEnt cs l = true ↔ ents cs l ≠ [] := by
  unfold hasEnt ents
  induction l with
  | nil => simp
  | cons e l ih =>
    by_cases h : (e.cs == cs) = true
    · simp [h]
    · simp [h, ih]

theorem ents_mod (cs cs' : Nat) (f : Ent → Ent) (hf : ∀ e, (f e).cs = e.cs) (l : List Ent) :
    ents cs' (modEnt cs f l) =
      if cs' = cs then ((ents cs l).map f).filter (fun e => decide (e.inst ≠ 0))
      else ents cs' l := by
  unfold ents modEnt
  induction l with
  | nil => split <;> rfl
  | cons e l ih =>
    by_cases hc : cs' = cs
    · subst hc
      rw [if_pos rfl] at ih ⊢
      by_cases h : e.cs = cs'
      · by_cases h0 : (f e).inst = 0
        · simp only [List.map_cons, List.filter_cons]
          simpa [h, h0, hf] using ih
        · simp only [List.map_cons, List.filter_cons]
          simpa [h, h0, hf] using ih
      · simp only [List.map_cons, List.filter_cons]
        simpa [h] using ih
    · rw [if_neg hc] at ih ⊢
      by_cases h : e.cs = cs
      · have h' : ¬ cs = cs' := fun hh => hc hh.symm
        by_cases h0 : (f e).inst = 0
        · simp only [List.map_cons, List.filter_cons]
          simpa [h, h0, hf, h'] using ih
        · simp only [List.map_cons, List.filter_cons]
          simpa [h, h0, hf, h'] using ih
      · by_cases h2 : e.cs = cs'
        · simp only [List.map_cons, List.filter_cons]
          simpa [h, h2, hc] using ih
        · simp only [List.map_cons, List.filter_cons]
          simpa [h, h2] using ih

/-- An empty node. -/
def zeroEnt (cs : Nat) : Ent := { cs := cs, inst := 0, asked := 0, extraU := 0, extraO := 0 }

theorem ents_new (cs cs' : Nat) (l : List Ent) :
    ents cs' (newEnt cs l) =
      if cs' = cs ∧ ents cs l = [] then [zeroEnt cs] else ents cs' l := by
  unfold newEnt
  by_cases hh : hasEnt cs l = true
  · have := (hasEnt_iff cs l).mp hh
    rw [if_pos hh, if_neg (fun h => this h.2)]
  · have h0 : ents cs l = [] := by
      by_cases e : ents cs l = []
      · exact e
      · exact absurd ((hasEnt_iff cs l).mpr e) hh
    rw [if_neg hh]
    by_cases hc : cs' = cs
    · subst hc
      rw [if_pos ⟨rfl, h0⟩]
      show List.filter _ (zeroEnt cs' :: l) = _
      rw [List.filter_cons_of_pos (by simp [zeroEnt])]
      show zeroEnt cs' :: ents cs' l = _
      rw [h0]
    · rw [if_neg (fun h => hc h.1)]
      show List.filter _ (zeroEnt cs :: l) = _
      rw [List.filter_cons_of_neg (by simp [zeroEnt]; exact fun h => hc h.symm)]
      rfl

theorem total_len (l : List Blk) : total (fun _ => 1) l = l.length := by
  unfold total
  induction l with
  | nil => rfl
  | cons b l ih => simp only [List.map_cons, List.sum_cons, List.length_cons, ih]; omega

theorem total_cons (f : Blk → Nat) (b : Blk) (l : List Blk) :
    total f (b :: l) = f b + total f l := by
  unfold total; rw [List.map_cons, List.sum_cons]

theorem total_erase (f : Blk → Nat) (b : Blk) (l : List Blk) (h : b ∈ l) :
    f b + total f (l.erase b) = total f l := by
  induction l with
  | nil => exact absurd h (List.not_mem_nil)
  | cons x l ih =>
    by_cases e : x = b
    · subst e
      rw [List.erase_cons_head, total_cons]
    · rw [List.erase_cons_tail (by simpa using e), total_cons, total_cons]
      have := ih (by rcases List.mem_cons.mp h with h | h
                     · exact absurd h.symm e
                     · exact h)
      omega

theorem ofCs_cons (cs : Nat) (f : Blk → Nat) (b : Blk) (l : List Blk) :
    total f (ofCs cs (b :: l)) = total f (ofCs cs l) + (if cs = b.cs then f b else 0) := by
  unfold ofCs
  by_cases h : b.cs = cs
  · rw [List.filter_cons_of_pos (by simpa using h), total_cons, if_pos h.symm, Nat.add_comm]
  · rw [List.filter_cons_of_neg (by simpa using h), if_neg (fun e => h e.symm), Nat.add_zero]

theorem ofCs_erase (cs : Nat) (f : Blk → Nat) (b : Blk) (l : List Blk) (hm : b ∈ l) :
    total f (ofCs cs (l.erase b)) + (if cs = b.cs then f b else 0) = total f (ofCs cs l) := by
  induction l with
  | nil => exact absurd hm (List.not_mem_nil)
  | cons x l ih =>
    by_cases e : x = b
    · subst e
      rw [List.erase_cons_head, ofCs_cons]
    · rw [List.erase_cons_tail (by simpa using e), ofCs_cons, ofCs_cons]
      have := ih (by rcases List.mem_cons.mp hm with h | h
                     · exact absurd h.symm e
                     · exact h)
      omega

/-- How the blocks of all call stacks change when one call stack changes. -/
structure Delta (cs : Nat) (l l' : List Blk) (dn a u : Int) : Prop where
  num : ∀ k, ((ofCs k l').length : Int) = (ofCs k l).length + (if k = cs then dn else 0)
  req : ∀ k, (total Blk.req (ofCs k l') : Int) = total Blk.req (ofCs k l) + (if k = cs then a else 0)
  pad : ∀ k, (total Blk.pad (ofCs k l') : Int) = total Blk.pad (ofCs k l) + (if k = cs then u else 0)

theorem ofCs_len (cs : Nat) (l : List Blk) : (ofCs cs l).length ≤ l.length :=
  List.length_filter_le _ _

/-- The node that is changed: it exists before. -/
theorem nodes_step (hdr cs : Nat) (l l' : List Blk) (dn a u : Int) (hd : Delta cs l l' dn a u)
    (hl : l'.length < 4294967296) (es es' : List Ent)
    (hes : ∀ k, ents k es = expected hdr k l)
    (hnew : ∀ k, ents k es' =
      if k = cs ∧ (ofCs cs l).length = 0 then [zeroEnt cs] else ents k es) :
    ∀ k, ents k (modEnt cs (addEnt dn a u (hdr * dn)) es') = expected hdr k l' := by
  intro k
  rw [ents_mod cs k (addEnt dn a u (hdr * dn)) (fun e => rfl)]
  by_cases hk : k = cs
  · subst hk
    rw [if_pos rfl]
    have hone : ents k es' =
        [{ cs := k
           inst := ((ofCs k l).length : Int) % 4294967296
           asked := (total Blk.req (ofCs k l) : Int) % 4294967296
           extraU := (total Blk.pad (ofCs k l) : Int) % 65536
           extraO := ((hdr * (ofCs k l).length : Nat) : Int) % 65536 }] := by
      rw [hnew k]
      by_cases h0 : (ofCs k l).length = 0
      · rw [if_pos ⟨rfl, h0⟩]
        have hnil : ofCs k l = [] := List.length_eq_zero_iff.mp h0
        rw [hnil]
        rfl
      · rw [if_neg (fun h => h0 h.2), hes k]
        unfold expected
        rw [if_neg h0]
    rw [hone]
    have h1 := hd.num k
    have h2 := hd.req k
    have h3 := hd.pad k
    rw [if_pos rfl] at h1 h2 h3
    have h4 : ((hdr * (ofCs k l').length : Nat) : Int) =
        ((hdr * (ofCs k l).length : Nat) : Int) + hdr * dn := by
      push_cast
      rw [h1, Int.mul_add]
    have hlen := ofCs_len k l'
    have he : addEnt dn a u (hdr * dn)
        { cs := k
          inst := ((ofCs k l).length : Int) % 4294967296
          asked := (total Blk.req (ofCs k l) : Int) % 4294967296
          extraU := (total Blk.pad (ofCs k l) : Int) % 65536
          extraO := ((hdr * (ofCs k l).length : Nat) : Int) % 65536 } =
        { cs := k
          inst := ((ofCs k l').length : Int) % 4294967296
          asked := (total Blk.req (ofCs k l') : Int) % 4294967296
          extraU := (total Blk.pad (ofCs k l') : Int) % 65536
          extraO := ((hdr * (ofCs k l').length : Nat) : Int) % 65536 } := by
      unfold addEnt
      rw [h1, h2, h3, h4]
      simp only [Int.emod_add_emod]
    rw [List.map_cons, List.map_nil, he]
    unfold expected
    by_cases h0 : (ofCs k l').length = 0
    · rw [if_pos h0, h0]
      rfl
    · rw [if_neg h0, List.filter_cons_of_pos]
      · rfl
      · have : ((ofCs k l').length : Int) % 4294967296 ≠ 0 := by omega
        simpa using this
  · rw [if_neg hk, hnew k, if_neg (fun h => hk h.1), hes k]
    have h1 := hd.num k
    have h2 := hd.req k
    have h3 := hd.pad k
    rw [if_neg hk] at h1 h2 h3
    unfold expected
    have e1 : (ofCs k l').length = (ofCs k l).length := by omega
    have e2 : total Blk.req (ofCs k l') = total Blk.req (ofCs k l) := by omega
    have e3 : total Blk.pad (ofCs k l') = total Blk.pad (ofCs k l) := by omega
    rw [e1, e2, e3]

theorem int32_fits (x : Int) (h : fitsInt x) : int32 x = x := by
  unfold fitsInt at h; unfold int32; omega

/-- The sizes of a block can be handled: the sum of all counted bytes is below 2 GiB, and the
allocator gave at least one byte. -/
def Fits (hdr : Nat) (b : Blk) : Prop := b.req + b.pad + hdr < 2147483648 ∧ 0 < b.pad

theorem ofCs_ne (hdr cs : Nat) (l : List Blk) (es : List Ent)
    (h : ents cs es = expected hdr cs l) : ents cs es = [] ↔ (ofCs cs l).length = 0 := by
  rw [h]; unfold expected
  by_cases h0 : (ofCs cs l).length = 0
  · rw [if_pos h0]; exact ⟨fun _ => h0, fun _ => rfl⟩
  · rw [if_neg h0]
    exact ⟨fun e => absurd e (List.cons_ne_nil _ _), fun e => absurd e h0⟩

theorem mem_ofCs (b : Blk) (l : List Blk) (h : b ∈ l) : (ofCs b.cs l).length ≠ 0 := by
  intro h0
  have hnil := List.length_eq_zero_iff.mp h0
  have : b ∈ ofCs b.cs l := by
    unfold ofCs; rw [List.mem_filter]; exact ⟨h, by simp⟩
  rw [hnil] at this
  exact absurd this List.not_mem_nil

theorem delta_cons (b : Blk) (l : List Blk) : Delta b.cs l (b :: l) 1 b.req b.pad := by
  constructor
  · intro k
    have := ofCs_cons k (fun _ => 1) b l
    rw [total_len, total_len] at this
    rw [this]; split <;> omega
  · intro k; rw [ofCs_cons]; split <;> omega
  · intro k; rw [ofCs_cons]; split <;> omega

theorem delta_erase (b : Blk) (l : List Blk) (h : b ∈ l) :
    Delta b.cs l (l.erase b) (-1) (-(b.req : Int)) (-(b.pad : Int)) := by
  constructor
  · intro k
    have := ofCs_erase k (fun _ => 1) b l h
    rw [total_len, total_len] at this
    rw [← this]; split <;> omega
  · intro k; rw [← ofCs_erase k Blk.req b l h]; split <;> omega
  · intro k; rw [← ofCs_erase k Blk.pad b l h]; split <;> omega

theorem delta_resize (b b' : Blk) (l : List Blk) (h : b ∈ l) (hc : b'.cs = b.cs) :
    Delta b'.cs l (b' :: l.erase b) 0 ((b'.req : Int) - b.req) ((b'.pad : Int) - b.pad) := by
  have h1 := delta_erase b l h
  have h2 := delta_cons b' (l.erase b)
  rw [hc] at h2 ⊢
  constructor
  · intro k; rw [h2.num, h1.num]; split <;> omega
  · intro k; rw [h2.req, h1.req]; split <;> omega
  · intro k; rw [h2.pad, h1.pad]; split <;> omega

/-- The counters of the whole snapshot. -/
theorem exact_bump (hdr : Nat) (l l' : List Blk) (x : Snap) (hx : Exact hdr l x)
    (dm dn a u : Int) (es : List Ent)
    (h1 : (l'.length : Int) = l.length + dn) (h2 : (total Blk.req l' : Int) = total Blk.req l + a)
    (h3 : (total Blk.pad l' : Int) = total Blk.pad l + u)
    (hes : ∀ k, ents k es = expected hdr k l') :
    Exact hdr l' (bump x dm a u (hdr * dn) es) := by
  constructor
  · show x.asked + a = _; rw [hx.asked, h2]
  · show x.usable + (a + u) = _; rw [hx.usable, h2, h3]; omega
  · show x.occupied + (a + u + hdr * dn) = _
    rw [hx.occupied, h2, h3]
    push_cast
    rw [h1, Int.mul_add]
    omega
  · exact hes

/-- `malloc` -/
theorem pre_malloc (hdr : Nat) (l : List Blk) (x : Snap) (b : Blk) (hx : Exact hdr l x)
    (hb : Fits hdr b) (hl : l.length + 1 < 4294967296) :
    ∃ x', pre b.cs (int32 b.req) (int32 b.pad) hdr false x = .ok x' ∧ Exact hdr (b :: l) x' ∧
      x'.mallocs = x.mallocs + 1 ∧ x'.stamp = x.stamp := by
  obtain ⟨h1, h2⟩ := hb
  rw [int32_fits _ (by unfold fitsInt; omega), int32_fits _ (by unfold fitsInt; omega)]
  unfold pre
  rw [if_neg (by unfold fitsInt; omega), if_pos (by omega)]
  refine ⟨_, rfl, ?_, rfl, rfl⟩
  have hh : (hdr : Int) = hdr * 1 := by omega
  rw [if_neg (by decide), show bump x 1 b.req b.pad hdr = bump x 1 b.req b.pad (hdr * 1) by rw [← hh],
    show addEnt 1 (b.req : Int) b.pad hdr = addEnt 1 b.req b.pad (hdr * 1) by rw [← hh]]
  refine exact_bump hdr l (b :: l) x hx 1 1 b.req b.pad _ ?_ ?_ ?_ ?_
  · rw [List.length_cons]; push_cast; rfl
  · rw [total_cons]; push_cast; omega
  · rw [total_cons]; push_cast; omega
  · refine nodes_step hdr b.cs l (b :: l) 1 b.req b.pad (delta_cons b l) hl x.used _
      hx.nodes (fun k => ?_)
    rw [ents_new]
    have := ofCs_ne hdr b.cs l x.used (hx.nodes b.cs)
    by_cases hk : k = b.cs ∧ ents b.cs x.used = []
    · rw [if_pos hk, if_pos ⟨hk.1, this.mp hk.2⟩]
    · rw [if_neg hk, if_neg (fun h => hk ⟨h.1, this.mpr h.2⟩)]

theorem has_of_mem (hdr : Nat) (l : List Blk) (x : Snap) (b : Blk) (hx : Exact hdr l x)
    (hm : b ∈ l) : hasEnt b.cs x.used = true := by
  rw [hasEnt_iff]
  intro h
  exact mem_ofCs b l hm ((ofCs_ne hdr b.cs l x.used (hx.nodes b.cs)).mp h)

/-- `free` -/
theorem pre_free (hdr : Nat) (l : List Blk) (x : Snap) (b : Blk) (hx : Exact hdr l x)
    (hb : Fits hdr b) (hm : b ∈ l) (hl : l.length < 4294967296) :
    ∃ x', pre b.cs (int32 (-(b.req : Int))) (int32 (-(b.pad : Int))) (-(hdr : Int)) false x = .ok x' ∧
      Exact hdr (l.erase b) x' ∧ x'.mallocs = x.mallocs - 1 ∧ x'.stamp = x.stamp := by
  obtain ⟨h1, h2⟩ := hb
  rw [int32_fits _ (by unfold fitsInt; omega), int32_fits _ (by unfold fitsInt; omega)]
  unfold pre
  rw [if_neg (by unfold fitsInt; omega), if_neg (by omega), if_pos (has_of_mem hdr l x b hx hm)]
  refine ⟨_, rfl, ?_, rfl, rfl⟩
  have hh : -(hdr : Int) = hdr * (-1) := by omega
  rw [if_neg (by decide), hh]
  have hlen := total_erase (fun _ => 1) b l hm
  rw [total_len, total_len] at hlen
  refine exact_bump hdr l (l.erase b) x hx (-1) (-1) (-(b.req : Int)) (-(b.pad : Int)) _ ?_ ?_ ?_ ?_
  · omega
  · have := total_erase Blk.req b l hm; omega
  · have := total_erase Blk.pad b l hm; omega
  · refine nodes_step hdr b.cs l (l.erase b) (-1) _ _ (delta_erase b l hm) (by omega) x.used _
      hx.nodes (fun k => ?_)
    rw [if_neg (fun h => mem_ofCs b l hm h.2)]

/-- `realloc` in place -/
theorem pre_resize (hdr : Nat) (l : List Blk) (x : Snap) (b b' : Blk) (hx : Exact hdr l x)
    (hb : Fits hdr b) (hb' : Fits hdr b') (hm : b ∈ l) (hc : b'.cs = b.cs)
    (hl : l.length < 4294967296) :
    ∃ x', pre b'.cs (int32 ((b'.req : Int) - b.req)) (int32 ((b'.pad : Int) - b.pad)) 0 true x =
        .ok x' ∧ Exact hdr (b' :: l.erase b) x' ∧
      x'.mallocs = x.mallocs + (if b.req + b.pad < b'.req + b'.pad then 1 else -1) ∧
      x'.stamp = x.stamp := by
  obtain ⟨h1, h2⟩ := hb
  obtain ⟨h3, h4⟩ := hb'
  rw [int32_fits _ (by unfold fitsInt; omega), int32_fits _ (by unfold fitsInt; omega)]
  have hlen := total_erase (fun _ => 1) b l hm
  rw [total_len, total_len] at hlen
  have hlen' : (b' :: l.erase b).length = l.length := by rw [List.length_cons]; omega
  have hh : (0 : Int) = hdr * 0 := by omega
  have hex : ∀ dm es, (∀ k, ents k es = expected hdr k (b' :: l.erase b)) →
      Exact hdr (b' :: l.erase b)
        (bump x dm ((b'.req : Int) - b.req) ((b'.pad : Int) - b.pad) (hdr * 0) es) := by
    intro dm es hes
    refine exact_bump hdr l _ x hx dm 0 _ _ es ?_ ?_ ?_ hes
    · omega
    · have := total_erase Blk.req b l hm
      rw [total_cons]; omega
    · have := total_erase Blk.pad b l hm
      rw [total_cons]; omega
  have hmem : (ofCs b'.cs l).length ≠ 0 := by rw [hc]; exact mem_ofCs b l hm
  have hhas : hasEnt b'.cs x.used = true := by rw [hc]; exact has_of_mem hdr l x b hx hm
  have hnodes := nodes_step hdr b'.cs l (b' :: l.erase b) 0 _ _ (delta_resize b b' l hm hc)
    (by omega) x.used x.used hx.nodes (fun k => by rw [if_neg (fun h => hmem h.2)])
  unfold pre
  rw [if_neg (by unfold fitsInt; omega)]
  by_cases hg : b.req + b.pad < b'.req + b'.pad
  · rw [if_pos (by omega), if_pos hg]
    refine ⟨_, rfl, ?_, rfl, rfl⟩
    have hn : newEnt b'.cs x.used = x.used := by unfold newEnt; rw [if_pos hhas]
    rw [hn, if_pos rfl]
    rw [show bump x 1 ((b'.req : Int) - b.req) ((b'.pad : Int) - b.pad) 0 =
      bump x 1 ((b'.req : Int) - b.req) ((b'.pad : Int) - b.pad) (hdr * 0) by rw [← hh],
      show addEnt 0 ((b'.req : Int) - b.req) ((b'.pad : Int) - b.pad) 0 =
      addEnt 0 ((b'.req : Int) - b.req) ((b'.pad : Int) - b.pad) (hdr * 0) by rw [← hh]]
    exact hex 1 _ hnodes
  · rw [if_neg (by omega), if_neg hg, if_pos hhas]
    refine ⟨_, rfl, ?_, rfl, rfl⟩
    rw [if_pos rfl]
    rw [show bump x (-1) ((b'.req : Int) - b.req) ((b'.pad : Int) - b.pad) 0 =
      bump x (-1) ((b'.req : Int) - b.req) ((b'.pad : Int) - b.pad) (hdr * 0) by rw [← hh],
      show addEnt 0 ((b'.req : Int) - b.req) ((b'.pad : Int) - b.pad) 0 =
      addEnt 0 ((b'.req : Int) - b.req) ((b'.pad : Int) - b.pad) (hdr * 0) by rw [← hh]]
    exact hex (-1) _ hnodes

end Verif.HeapStat
