import Mathlib.Data.List.Induction
import Mathlib.Data.List.Perm.Basic
import Mathlib.Algebra.BigOperators.Group.List.Basic
import Verif.Alloc

/-!
# The heap as lists of chunks

Each arena is a chain of chunks.  The invariant ties headers, free lists, the delay list, the
counters and the arena fields to these lists.
-/
namespace Verif.Al

/-- What a well-formed configuration satisfies (asserted in common/alloc_replace.c:5269-5292). -/
structure CfgOk (c : Cfg) : Prop where
  rz : c.A ∣ c.rz
  mainHdr : c.A ∣ c.mainHdr
  subHdr : c.A ∣ c.subHdr
  mainFits : c.mainHdr + c.inter ≤ page
  subFits : c.subHdr + c.inter ≤ page

/-- State of a chunk: in use with a requested size; in use, request not yet recorded; taken off a
free list; quarantined; on a free list; about to go onto a free list (`held x`: the next chunk
believes that a free chunk of size `x` precedes it, or none for 0). -/
inductive CS
  | live (r : Nat)
  | raw
  | pop
  | delay
  | free
  | held (x : Nat)
deriving DecidableEq

/-- A chunk. -/
structure Ck where
  p : Nat
  size : Nat
  st : CS
deriving DecidableEq

/-- Whether the freed flag is set. -/
def CS.freed : CS → Bool
  | .live _ => false
  | .raw => false
  | _ => true

/-- Size of the free chunk that the next chunk knows about. -/
def Ck.fsz (k : Ck) : Nat :=
  match k.st with
  | .free => k.size
  | .held x => x
  | _ => 0

/-- A header describes a chunk that follows a free chunk of size `pf` (0: none). -/
structure HdrOk (h : Hdr) (k : Ck) (pf : Nat) : Prop where
  size : h.size = k.size
  freed : h.freed = k.st.freed
  delay : h.delay = decide (k.st = .delay)
  mmap : h.mmap = false
  prevFree : h.prevFree = decide (pf ≠ 0)
  prevSz : pf ≠ 0 → h.prevSz = pf
  req : ∀ r, k.st = .live r → r ≤ k.size ∧ h.reqDiff = k.size - r

/-- The chunks from `p` to `q`: sizes, headers, no two adjacent free chunks. -/
def Rep (c : Cfg) (hdr : Nat → Option Hdr) : Nat → Nat → List Ck → Nat → Nat → Prop
  | p, pf, [], q, pf' => p = q ∧ pf = pf'
  | p, pf, k :: ks, q, pf' =>
    k.p = p ∧ c.A ≤ k.size ∧ c.A ∣ k.size ∧ (∃ h, hdr p = some h ∧ HdrOk h k pf) ∧
    (k.st = .free → pf = 0) ∧ Rep c hdr (p + k.size + c.inter) k.fsz ks q pf'

/-- Shape of an arena. -/
structure AGeo (c : Cfg) (a : Arena) : Prop where
  start : c.A ∣ a.start
  base : a.base + c.inter ≤ a.start
  next : a.start ≤ a.next
  commit : a.next ≤ a.commit
  pages : page ∣ a.commit
  span : a.commit < a.base + 2 ^ 32

/-- All chunks. -/
def chunks (G : List (Arena × List Ck)) : List Ck := G.flatMap Prod.snd

/-- The free chunks of a size class. -/
def fr (c : Cfg) (b : Nat) (C : List Ck) : List Nat :=
  (C.filter fun k => k.st = .free ∧ bucketIndex c k.size = b).map Ck.p

/-- The quarantined chunks. -/
def dl (C : List Ck) : List Nat := (C.filter fun k => k.st = .delay).map Ck.p

/-- Their total size. -/
def db (C : List Ck) : Nat := ((C.filter fun k => k.st = .delay).map Ck.size).sum

/-- Disjoint half-open intervals. -/
def Disj (x y : Nat × Nat) : Prop := x.2 ≤ y.1 ∨ y.2 ≤ x.1

/-- The memory held by arenas and by large allocations. -/
def regs (as : List Arena) (ms : List Map) : List (Nat × Nat) :=
  as.map (fun a => (a.base, a.commit)) ++ ms.map fun m => (m.base, m.base + m.size)

/-- `R` gives the sizes of the quarantined chunks. -/
def Dz (R : Nat → Nat) (C : List Ck) : Prop := ∀ k ∈ C, k.st = .delay → R k.p = k.size

/-- Local changes keep the sizes of the quarantined chunks. -/
macro "dz" : tactic =>
  `(tactic| first | exact id | (simp only [Verif.Al.Dz]; intro hd' k' hk' hs'; grind))

/-- A large allocation; `R` gives the size asked for. -/
structure MapOk (c : Cfg) (R : Nat → Nat) (hdr : Nat → Option Hdr) (m : Map) : Prop where
  hdr : ∃ h, hdr m.ptr = some h ∧ h.mmap = true ∧ h.freed = false ∧ h.reqDiff ≤ h.size ∧ h.req = R m.ptr ∧
    m.ptr + h.size + c.rz ≤ m.base + m.size
  low : m.base + c.mh + c.rz + c.hbr ≤ m.ptr
  align : c.A ∣ m.ptr
  pos : m.base < m.ptr
  fits : m.ptr < m.base + m.size

/-- The invariant of the heap. -/
structure Pre (c : Cfg) (R : Nat → Nat) (s : St) (G : List (Arena × List Ck)) : Prop where
  arenas : s.arenas = G.map Prod.fst
  ne : G ≠ []
  geo : ∀ g ∈ G, AGeo c g.1
  rep : ∀ g ∈ G, Rep c s.hdr g.1.start 0 g.2 g.1.next g.1.prevFree
  regs : (regs s.arenas s.maps).Pairwise Disj
  free : ∀ b, (s.free b).Perm (fr c b (chunks G))
  delay : s.delay.Perm (dl (chunks G))
  dChunks : s.dChunks = (dl (chunks G)).length
  dBytes : s.dBytes = db (chunks G)
  maps : ∀ m ∈ s.maps, MapOk c R s.hdr m
  stale : ∀ p h, s.hdr p = some h → h.freed = false →
    (∃ k ∈ chunks G, k.p = p) ∨ ∃ m ∈ s.maps, m.ptr = p
  dz : Dz R (chunks G)

/-! ## Arithmetic -/

theorem A_pos (c : Cfg) : 0 < c.A := by unfold Cfg.A; split <;> omega

theorem A_le (c : Cfg) : c.A ≤ 16 := by unfold Cfg.A; split <;> omega

theorem A_hs (c : Cfg) : c.A ∣ c.hs := by
  unfold Cfg.A Cfg.hs
  cases c.x64 <;> cases c.shared <;> decide

theorem hs_le (c : Cfg) : c.hs + c.rbh ≤ c.inter := by
  unfold Cfg.inter Cfg.hbr Cfg.rbh
  cases c.shared
  · simp
  · simp only [Bool.not_true, Bool.false_eq_true, if_false, if_true, Nat.add_zero]
    split <;> omega

theorem A_hbr {c : Cfg} (hc : CfgOk c) : c.A ∣ c.hbr := by
  have h1 := A_hs c
  have h2 := hc.rz
  unfold Cfg.hbr
  split
  · exact h1
  · split
    · exact Nat.dvd_sub h1 h2
    · exact Nat.dvd_zero _

theorem A_inter {c : Cfg} (hc : CfgOk c) : c.A ∣ c.inter := by
  have h2 := hc.rz
  unfold Cfg.inter
  refine Nat.dvd_add (Nat.dvd_add h2 (A_hbr hc)) ?_
  split
  · exact Nat.dvd_zero _
  · exact h2

theorem inter_pos (c : Cfg) : 24 ≤ c.inter := by
  have h := hs_le c
  have : 24 ≤ c.hs := by unfold Cfg.hs; split <;> split <;> omega
  omega

/-! ## Chains -/

variable {c : Cfg} {hdr hdr' : Nat → Option Hdr}

theorem Rep.append {l r : List Ck} : ∀ {p pf q pf'}, Rep c hdr p pf (l ++ r) q pf' ↔
    ∃ m pm, Rep c hdr p pf l m pm ∧ Rep c hdr m pm r q pf' := by
  induction l with
  | nil =>
    intro p pf q pf'
    constructor
    · intro h; exact ⟨p, pf, ⟨rfl, rfl⟩, h⟩
    · rintro ⟨m, pm, ⟨rfl, rfl⟩, h⟩; exact h
  | cons k l ih =>
    intro p pf q pf'
    constructor
    · rintro ⟨h1, h2, h3, h4, h5, h6⟩
      obtain ⟨m, pm, h7, h8⟩ := ih.1 h6
      exact ⟨m, pm, ⟨h1, h2, h3, h4, h5, h7⟩, h8⟩
    · rintro ⟨m, pm, ⟨h1, h2, h3, h4, h5, h7⟩, h8⟩
      exact ⟨h1, h2, h3, h4, h5, ih.2 ⟨m, pm, h7, h8⟩⟩

theorem Rep.le {l : List Ck} : ∀ {p pf q pf'}, Rep c hdr p pf l q pf' → p ≤ q := by
  induction l with
  | nil => rintro p pf q pf' ⟨rfl, _⟩; exact Nat.le_refl _
  | cons k l ih =>
    rintro p pf q pf' ⟨_, _, _, _, _, h⟩
    have := ih h
    omega

/-- Every chunk of a chain ends before the next one starts. -/
theorem Rep.mem {l : List Ck} : ∀ {p pf q pf'}, Rep c hdr p pf l q pf' → ∀ k ∈ l,
    p ≤ k.p ∧ k.p + k.size + c.inter ≤ q ∧ c.A ≤ k.size ∧ c.A ∣ k.size := by
  induction l with
  | nil => intro _ _ _ _ _ k hk; cases hk
  | cons k0 l ih =>
    rintro p pf q pf' ⟨h1, h2, h3, _, _, h⟩ k hk
    rcases List.mem_cons.1 hk with rfl | hk
    · have := h.le
      exact ⟨by omega, by omega, h2, h3⟩
    · obtain ⟨h4, h5, h6⟩ := ih h k hk
      exact ⟨by omega, h5, h6⟩

theorem Rep.hdr_mem {l : List Ck} : ∀ {p pf q pf'}, Rep c hdr p pf l q pf' → ∀ k ∈ l,
    ∃ h pm, hdr k.p = some h ∧ HdrOk h k pm := by
  induction l with
  | nil => intro _ _ _ _ _ k hk; cases hk
  | cons k0 l ih =>
    rintro p pf q pf' ⟨h1, h2, h3, ⟨x, hx, hx'⟩, _, h⟩ k hk
    rcases List.mem_cons.1 hk with rfl | hk
    · exact ⟨x, pf, by rw [h1]; exact hx, hx'⟩
    · exact ih h k hk

theorem Rep.align {l : List Ck} (hc : CfgOk c) : ∀ {p pf q pf'}, Rep c hdr p pf l q pf' → c.A ∣ p →
    c.A ∣ q ∧ ∀ k ∈ l, c.A ∣ k.p := by
  induction l with
  | nil => rintro p pf q pf' ⟨rfl, _⟩ h; exact ⟨h, fun k hk => by cases hk⟩
  | cons k0 l ih =>
    rintro p pf q pf' ⟨h1, h2, h3, _, _, h⟩ hp
    obtain ⟨h4, h5⟩ := ih h (Nat.dvd_add (Nat.dvd_add hp h3) (A_inter hc))
    refine ⟨h4, fun k hk => ?_⟩
    rcases List.mem_cons.1 hk with rfl | hk
    · rw [h1]; exact hp
    · exact h5 k hk

/-- Only the headers between the ends matter. -/
theorem Rep.frame {l : List Ck} : ∀ {p pf q pf'}, Rep c hdr p pf l q pf' →
    (∀ x, p ≤ x → x < q → hdr' x = hdr x) → Rep c hdr' p pf l q pf' := by
  induction l with
  | nil => intro _ _ _ _ h _; exact h
  | cons k l ih =>
    rintro p pf q pf' ⟨h1, h2, h3, h4, h5, h⟩ hf
    have := h.le
    have hA := A_pos c
    refine ⟨h1, h2, h3, ?_, h5, ih h fun x hx hx' => hf x (by omega) hx'⟩
    rw [hf p (Nat.le_refl _) (by omega)]; exact h4

theorem Rep.end_unique {l : List Ck} : ∀ {p pf pg q q' pf' pg'}, Rep c hdr p pf l q pf' →
    Rep c hdr' p pg l q' pg' → q = q' := by
  induction l with
  | nil => rintro p pf pg q q' pf' pg' ⟨rfl, _⟩ ⟨rfl, _⟩; rfl
  | cons k l ih =>
    rintro p pf pg q q' pf' pg' ⟨_, _, _, _, _, h⟩ ⟨_, _, _, _, _, h'⟩
    exact ih h h'

/-- Size of the free chunk at the end of a list. -/
def lastFsz (l : List Ck) : Nat := (l.getLast?.map Ck.fsz).getD 0

theorem Rep.last {l : List Ck} {p q pf'} (h : Rep c hdr p 0 l q pf') : pf' = lastFsz l := by
  induction l using List.reverseRecOn with
  | nil => exact h.2.symm
  | append_singleton l k _ =>
    obtain ⟨m, pm, _, h2⟩ := Rep.append.1 h
    obtain ⟨_, _, _, _, _, _, h3⟩ := h2
    rw [← h3]; simp [lastFsz]

theorem Rep.pairwise {l : List Ck} : ∀ {p pf q pf'}, Rep c hdr p pf l q pf' →
    l.Pairwise fun k k' => k.p + k.size + c.inter ≤ k'.p := by
  induction l with
  | nil => intro _ _ _ _ _; exact List.Pairwise.nil
  | cons k l ih =>
    rintro p pf q pf' ⟨h1, h2, h3, h4, h5, h⟩
    refine List.Pairwise.cons (fun k' hk' => ?_) (ih h)
    have := (h.mem k' hk').1
    omega

/-! ## The whole heap -/

theorem chunks_mid (G1 G2 : List (Arena × List Ck)) (a : Arena) (cs : List Ck) :
    chunks (G1 ++ (a, cs) :: G2) = chunks G1 ++ (cs ++ chunks G2) := by
  simp [chunks]

theorem fr_append (b : Nat) (C D : List Ck) : fr c b (C ++ D) = fr c b C ++ fr c b D := by
  simp [fr]

theorem dl_append (C D : List Ck) : dl (C ++ D) = dl C ++ dl D := by simp [dl]

theorem db_append (C D : List Ck) : db (C ++ D) = db C + db D := by simp [db]

/-- The position of a chunk. -/
theorem chunk_split {G : List (Arena × List Ck)} {k : Ck} (hk : k ∈ chunks G) :
    ∃ G1 a l r G2, G = G1 ++ (a, l ++ k :: r) :: G2 := by
  obtain ⟨⟨a, cs⟩, hg, hk'⟩ := List.mem_flatMap.1 hk
  obtain ⟨G1, G2, rfl⟩ := List.append_of_mem hg
  obtain ⟨l, r, h⟩ := List.append_of_mem hk'
  exact ⟨G1, a, l, r, G2, by rw [← h]⟩

section
variable {R : Nat → Nat} {s : St} {G G1 G2 : List (Arena × List Ck)} {a : Arena} {cs : List Ck}

theorem Pre.arena_disj (hp : Pre c R s (G1 ++ (a, cs) :: G2)) {g : Arena × List Ck}
    (hg : g ∈ G1 ∨ g ∈ G2) : Disj (g.1.base, g.1.commit) (a.base, a.commit) := by
  have h := hp.regs
  rw [hp.arenas] at h
  unfold Al.regs at h
  rw [List.pairwise_append] at h
  have h := h.1
  rw [List.map_append, List.map_append, List.pairwise_append] at h
  rcases hg with hg | hg
  · exact h.2.2 _ (List.mem_map_of_mem (List.mem_map_of_mem hg)) _ (by simp)
  · have h := h.2.1
    simp only [List.map_cons, List.pairwise_cons] at h
    have := h.1 _ (List.mem_map_of_mem (List.mem_map_of_mem hg))
    exact Or.symm this

theorem Pre.map_disj (hp : Pre c R s G) {g : Arena × List Ck} (hg : g ∈ G) {m : Map}
    (hm : m ∈ s.maps) : Disj (g.1.base, g.1.commit) (m.base, m.base + m.size) := by
  have h := hp.regs
  rw [hp.arenas] at h
  unfold Al.regs at h
  rw [List.pairwise_append] at h
  exact h.2.2 _ (List.mem_map_of_mem (List.mem_map_of_mem hg)) _ (List.mem_map_of_mem hm)

/-- Where a chunk lies. -/
theorem Pre.chunk_in (hp : Pre c R s G) {g : Arena × List Ck} (hg : g ∈ G) {k : Ck} (hk : k ∈ g.2) :
    g.1.start ≤ k.p ∧ g.1.base < k.p ∧ k.p + k.size + c.inter ≤ g.1.next ∧ g.1.next ≤ g.1.commit ∧
      k.p < g.1.commit := by
  have h1 := (hp.rep g hg).mem k hk
  have h2 := hp.geo g hg
  have h3 := h2.base
  have h4 := h2.commit
  have h5 := inter_pos c
  omega

/-- The general step: the end of one arena is replaced. -/
theorem Pre.edit {l T T' : List Ck} {s' : St} {a' : Arena} {m pm : Nat}
    (hp : Pre c R s (G1 ++ (a, l ++ T) :: G2))
    (hl : Rep c s.hdr a.start 0 l m pm)
    (hT : Rep c s'.hdr m pm T' a'.next a'.prevFree)
    (har : s'.arenas = G1.map Prod.fst ++ a' :: G2.map Prod.fst)
    (hgeo : AGeo c a') (hbase : a'.base = a.base) (hstart : a'.start = a.start)
    (hcommit : a'.commit ≤ a.commit) (hmaps : s'.maps = s.maps)
    (hframe : ∀ p, ¬ (m ≤ p ∧ p < a.commit) → s'.hdr p = s.hdr p)
    (hfree : ∀ b X, (s.free b).Perm (fr c b T ++ X) → (s'.free b).Perm (fr c b T' ++ X))
    (hdelay : ∀ X, s.delay.Perm (dl T ++ X) → s'.delay.Perm (dl T' ++ X))
    (hdc : s'.dChunks + (dl T).length = s.dChunks + (dl T').length)
    (hdb : s'.dBytes + db T = s.dBytes + db T')
    (hstale : ∀ p h, m ≤ p → p < a.commit → s'.hdr p = some h → h.freed = false →
      ∃ k ∈ T', k.p = p)
    (hdz : Dz R T → Dz R T' := by dz) :
    Pre c R s' (G1 ++ (a', l ++ T') :: G2) := by
  have hm := hl.le
  have hga := hp.geo (a, l ++ T) (by simp)
  have hbase0 : a.base < m := by
    have h1 := hga.base
    have h5 := inter_pos c
    have h2 : a.base + c.inter ≤ a.start := h1
    omega
  have hother : ∀ g, g ∈ G1 ∨ g ∈ G2 → g ∈ G1 ++ (a, l ++ T) :: G2 := by
    intro g hg
    rcases hg with h | h
    · exact List.mem_append_left _ h
    · exact List.mem_append_right _ (List.mem_cons_of_mem _ h)
  have hcases : ∀ g, g ∈ G1 ++ (a', l ++ T') :: G2 → g = (a', l ++ T') ∨ g ∈ G1 ∨ g ∈ G2 := by
    intro g hg
    rcases List.mem_append.1 hg with h | h
    · exact Or.inr (Or.inl h)
    · rcases List.mem_cons.1 h with h | h
      · exact Or.inl h
      · exact Or.inr (Or.inr h)
  constructor
  · rw [har]; simp
  · simp
  · intro g hg
    rcases hcases g hg with rfl | h
    · exact hgeo
    · exact hp.geo g (hother g h)
  · intro g hg
    rcases hcases g hg with rfl | h
    · refine Rep.append.2 ⟨m, pm, ?_, hT⟩
      show Rep c s'.hdr a'.start 0 l m pm
      rw [hstart]
      exact hl.frame fun x h1 h2 => hframe x (by omega)
    · refine (hp.rep g (hother g h)).frame fun x h1 h2 => hframe x ?_
      have hd := hp.arena_disj h
      have hg2 := hp.geo g (hother g h)
      have h3 := hg2.base
      have h4 := hg2.commit
      have h5 := inter_pos c
      simp only [Disj] at hd
      omega
  · have h := hp.regs
    rw [hp.arenas] at h
    rw [har, hmaps]
    unfold Al.regs at h ⊢
    simp only [List.map_append, List.map_cons, List.append_assoc, List.cons_append,
      List.pairwise_append, List.pairwise_cons] at h ⊢
    obtain ⟨h1, ⟨h2, h3⟩, h4⟩ := h
    refine ⟨h1, ⟨?_, h3⟩, ?_⟩
    · intro x hx
      have := h2 x hx
      simp only [Disj, hbase] at this ⊢
      omega
    · intro x hx y hy
      rcases List.mem_cons.1 hy with rfl | hy
      · have := h4 x hx _ (List.mem_cons_self ..)
        simp only [Disj, hbase] at this ⊢
        omega
      · exact h4 x hx y (List.mem_cons_of_mem _ hy)
  · intro b
    have h := hp.free b
    rw [chunks_mid] at h ⊢
    simp only [fr_append] at h ⊢
    have h1 : (fr c b (chunks G1) ++ (fr c b l ++ fr c b T ++ fr c b (chunks G2))).Perm
        (fr c b T ++ (fr c b (chunks G1) ++ (fr c b l ++ fr c b (chunks G2)))) := by
      rw [List.append_assoc, ← List.append_assoc (fr c b (chunks G1)),
        ← List.append_assoc (fr c b (chunks G1)) (fr c b l) (fr c b (chunks G2))]
      exact List.perm_append_comm_assoc _ _ _
    have h2 : (fr c b (chunks G1) ++ (fr c b l ++ fr c b T' ++ fr c b (chunks G2))).Perm
        (fr c b T' ++ (fr c b (chunks G1) ++ (fr c b l ++ fr c b (chunks G2)))) := by
      rw [List.append_assoc, ← List.append_assoc (fr c b (chunks G1)),
        ← List.append_assoc (fr c b (chunks G1)) (fr c b l) (fr c b (chunks G2))]
      exact List.perm_append_comm_assoc _ _ _
    exact (hfree b _ (h.trans h1)).trans h2.symm
  · have h := hp.delay
    rw [chunks_mid] at h ⊢
    simp only [dl_append] at h ⊢
    have h1 : (dl (chunks G1) ++ (dl l ++ dl T ++ dl (chunks G2))).Perm
        (dl T ++ (dl (chunks G1) ++ (dl l ++ dl (chunks G2)))) := by
      rw [List.append_assoc, ← List.append_assoc (dl (chunks G1)),
        ← List.append_assoc (dl (chunks G1)) (dl l) (dl (chunks G2))]
      exact List.perm_append_comm_assoc _ _ _
    have h2 : (dl (chunks G1) ++ (dl l ++ dl T' ++ dl (chunks G2))).Perm
        (dl T' ++ (dl (chunks G1) ++ (dl l ++ dl (chunks G2)))) := by
      rw [List.append_assoc, ← List.append_assoc (dl (chunks G1)),
        ← List.append_assoc (dl (chunks G1)) (dl l) (dl (chunks G2))]
      exact List.perm_append_comm_assoc _ _ _
    exact (hdelay _ (h.trans h1)).trans h2.symm
  · have h := hp.dChunks
    rw [chunks_mid] at h ⊢
    simp only [dl_append, List.length_append] at h ⊢
    omega
  · have h := hp.dBytes
    rw [chunks_mid] at h ⊢
    simp only [db_append] at h ⊢
    omega
  · intro x hx
    rw [hmaps] at hx
    have h1 := hp.maps x hx
    have hd := hp.map_disj (g := (a, l ++ T)) (by simp) hx
    have hf : s'.hdr x.ptr = s.hdr x.ptr := by
      apply hframe
      have h2 := h1.pos
      have h3 := h1.fits
      simp only [Disj] at hd
      omega
    exact { h1 with hdr := by rw [hf]; exact h1.hdr }
  · intro p h hh hf
    by_cases hin : m ≤ p ∧ p < a.commit
    · obtain ⟨k, hk, hkp⟩ := hstale p h hin.1 hin.2 hh hf
      exact Or.inl ⟨k, by rw [chunks_mid]; simp [hk], hkp⟩
    · rw [hframe p hin] at hh
      rcases hp.stale p h hh hf with ⟨k, hk, hkp⟩ | ⟨x, hx, hxp⟩
      · left
        refine ⟨k, ?_, hkp⟩
        rw [chunks_mid] at hk ⊢
        simp only [List.mem_append] at hk ⊢
        rcases hk with h | (h | h) | h
        · exact Or.inl h
        · exact Or.inr (Or.inl (Or.inl h))
        · exfalso
          obtain ⟨m', pm', h1, h2⟩ := Rep.append.1 (hp.rep (a, l ++ T) (by simp))
          have h3 := hp.chunk_in (g := (a, l ++ T)) (by simp) (k := k)
            (List.mem_append_right _ h)
          have h4 := (h2.mem k h).1
          have h5 : m' = m := by
            have := Rep.end_unique h1 hl
            exact this
          simp only at h3
          omega
        · exact Or.inr (Or.inr h)
      · right; exact ⟨x, by rw [hmaps]; exact hx, hxp⟩
  · have h := hp.dz
    rw [chunks_mid] at h ⊢
    intro k hk hd
    simp only [List.mem_append] at hk
    rcases hk with hk | (hk | hk) | hk
    · exact h k (by simp [hk]) hd
    · exact h k (by simp [hk]) hd
    · exact hdz (fun k hk hd => h k (by simp [hk]) hd) k hk hd
    · exact h k (by simp [hk]) hd

theorem Pre.stale_in0 {l T : List Ck} {m pm : Nat} (hp : Pre c R s (G1 ++ (a, l ++ T) :: G2))
    (hl : Rep c s.hdr a.start 0 l m pm) {p : Nat} {h : Hdr} (h1 : m ≤ p) (h2 : p < a.commit)
    (hh : s.hdr p = some h) (hf : h.freed = false) : ∃ k ∈ T, k.p = p := by
  have hm := hl.le
  have hga := hp.geo (a, l ++ T) (by simp)
  have hb0 := hga.base
  have hi := inter_pos c
  simp only at hb0
  rcases hp.stale p h hh hf with ⟨k, hk, hkp⟩ | ⟨x, hx, hxp⟩
  · rw [chunks_mid] at hk
    have hout : ∀ g, (g ∈ G1 ∨ g ∈ G2) → k ∈ g.2 → False := by
      intro g hg hkg
      have hd := hp.arena_disj hg
      have hg' : g ∈ G1 ++ (a, l ++ T) :: G2 := by
        rcases hg with h | h
        · exact List.mem_append_left _ h
        · exact List.mem_append_right _ (List.mem_cons_of_mem _ h)
      have h3 := hp.chunk_in hg' hkg
      simp only [Disj] at hd
      omega
    rcases List.mem_append.1 hk with h | h
    · obtain ⟨g, hg, hkg⟩ := List.mem_flatMap.1 h
      exact (hout g (Or.inl hg) hkg).elim
    · rcases List.mem_append.1 h with h | h
      · rcases List.mem_append.1 h with h | h
        · exfalso
          have := hl.mem k h
          omega
        · exact ⟨k, h, hkp⟩
      · obtain ⟨g, hg, hkg⟩ := List.mem_flatMap.1 h
        exact (hout g (Or.inr hg) hkg).elim
  · exfalso
    have hd := hp.map_disj (g := (a, l ++ T)) (by simp) hx
    have h3 := (hp.maps x hx).pos
    have h4 := (hp.maps x hx).fits
    simp only [Disj] at hd
    omega

/-- Headers in use in the rest of an arena are those of its chunks in use. -/
theorem Pre.stale_in {l T : List Ck} {m pm : Nat} (hp : Pre c R s (G1 ++ (a, l ++ T) :: G2))
    (hl : Rep c s.hdr a.start 0 l m pm) {p : Nat} {h : Hdr} (h1 : m ≤ p) (h2 : p < a.commit)
    (hh : s.hdr p = some h) (hf : h.freed = false) : ∃ k ∈ T, k.p = p ∧ k.st.freed = false := by
  obtain ⟨k, hk, hkp⟩ := hp.stale_in0 hl h1 h2 hh hf
  refine ⟨k, hk, hkp, ?_⟩
  obtain ⟨h', pm', h3, h4⟩ := (hp.rep (a, l ++ T) (by simp)).hdr_mem k (by simp [hk])
  rw [hkp, hh] at h3
  cases h3
  rw [← h4.freed]; exact hf

end

end Verif.Al
