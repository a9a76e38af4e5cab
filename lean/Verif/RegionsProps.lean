import Verif.Regions
import Verif.RedBlackThms

/-! # C18, C19: heap regions and anonymous mappings -/
namespace Verif.Regions
open Verif.RB

theorem sub64_eq {a b : Nat} (h : b ≤ a) (ha : a < W) : sub64 a b = a - b := by
  unfold sub64
  rw [show a + W - b = (a - b) + W by omega, Nat.add_mod_right, Nat.mod_eq_of_lt (by omega)]

theorem add64_eq {a b : Nat} (h : a + b < W) : add64 a b = a + b := Nat.mod_eq_of_lt h

/-- Two stored intervals with the same base are the same. -/
theorem base_inj {t : Tree} (hv : Valid t) {x y : Ent} (hx : x ∈ toList t) (hy : y ∈ toList t)
    (h : x.base = y.base) : x = y := by
  have h1 := (C15_find y.base x hv).2 ⟨hx, h⟩
  rw [(C15_find y.base y hv).2 ⟨hy, rfl⟩] at h1
  exact (Option.some.inj h1).symm

/-- Two stored intervals sharing an address are the same. -/
theorem covers_inj {t : Tree} (hv : Valid t) {x y : Ent} (hx : x ∈ toList t) (hy : y ∈ toList t)
    {a : Nat} (h1 : Covers x a) (h2 : Covers y a) : x = y := by
  by_cases h : x = y
  · exact h
  · exact absurd ⟨a, h1, h2⟩ (hv.disj x hx y hy h)

theorem ins_fresh {d : Bool} {n : Ent} {t : Tree} (hv : Valid t) (hn : Good n)
    (hno : ∀ e ∈ toList t, ¬ Overlap n e) :
    ∃ t', ins d n t = some t' ∧ Valid t' ∧ ∀ x, x ∈ toList t' ↔ x = n ∨ x ∈ toList t := by
  obtain ⟨t', h1, h2, h3⟩ := C15_insert_fresh (d := d) hv hn hno
  exact ⟨t', by simp [ins, h1], h2, h3⟩

/-- What `cut` does to the set of stored intervals. -/
theorem cut_spec (d : Bool) {start stop : Nat} (hse : start < stop) {n : Ent} {t : Tree}
    (hv : Valid t) (hn : n ∈ toList t) (hov : ∃ a, start ≤ a ∧ a < stop ∧ Covers n a) :
    ∃ t', cut d start stop n t = some t' ∧ Valid t' ∧ ∀ x, x ∈ toList t' ↔
      (x ∈ toList t ∧ x ≠ n) ∨
      (n.base < start ∧ x = ⟨n.base, start - n.base, n.client⟩) ∨
      (stop < n.base + n.size ∧ x = ⟨stop, n.base + n.size - stop, n.client⟩) := by
  obtain ⟨a, a1, a2, a3⟩ := hov
  have gn := hv.good n hn
  have gn1 := gn.1
  have gn2 := gn.2
  have hlast := gn.last
  unfold Covers at a3
  obtain ⟨t1, e1, v1, m1⟩ := C15_delete n.base hv
  have m1' : ∀ x, x ∈ toList t1 ↔ x ∈ toList t ∧ x ≠ n := by
    intro x
    rw [m1]
    constructor
    · rintro ⟨h1, h2⟩; exact ⟨h1, fun h => h2 (by rw [h])⟩
    · rintro ⟨h1, h2⟩; exact ⟨h1, fun h => h2 (base_inj hv h1 hn h)⟩
  have part : ∀ p : Ent, n.base ≤ p.base → p.base + p.size ≤ n.base + n.size →
      ∀ e ∈ toList t1, ¬ Overlap p e := by
    rintro p h1 h2 e he ⟨b, b1, b2⟩
    rw [m1'] at he
    exact hv.disj e he.1 n hn he.2 ⟨b, b2, by unfold Covers at *; omega⟩
  unfold cut
  rw [e1, Option.bind_some, hlast]
  have step1 : ∃ t2, (if n.base < start then ins d ⟨n.base, sub64 start n.base, n.client⟩ t1
      else some t1) = some t2 ∧ Valid t2 ∧ ∀ x, x ∈ toList t2 ↔
      (x ∈ toList t ∧ x ≠ n) ∨ (n.base < start ∧ x = ⟨n.base, start - n.base, n.client⟩) := by
    split
    · rename_i h
      rw [sub64_eq (by omega) (by omega)]
      obtain ⟨t2, r1, r2, r3⟩ := ins_fresh (d := d) (n := ⟨n.base, start - n.base, n.client⟩) v1
        ⟨by show 0 < start - n.base; omega, by show n.base + (start - n.base) < W; omega⟩
        (part _ (Nat.le_refl _) (by show n.base + (start - n.base) ≤ _; omega))
      refine ⟨t2, r1, r2, fun x => ?_⟩
      rw [r3, m1']
      constructor
      · rintro (h' | h')
        · exact .inr ⟨h, h'⟩
        · exact .inl h'
      · rintro (h' | h')
        · exact .inr h'
        · exact .inl h'.2
    · rename_i h
      refine ⟨t1, rfl, v1, fun x => ?_⟩
      rw [m1']
      constructor
      · exact .inl
      · rintro (h' | h')
        · exact h'
        · exact absurd h'.1 h
  obtain ⟨t2, e2, v2, m2⟩ := step1
  rw [e2, Option.bind_some]
  split
  · rename_i h
    rw [sub64_eq (by omega) (by omega)]
    obtain ⟨t3, r1, r2, r3⟩ := ins_fresh (d := d) (n := ⟨stop, n.base + n.size - stop, n.client⟩) v2
      ⟨by show 0 < n.base + n.size - stop; omega,
       by show stop + (n.base + n.size - stop) < W; omega⟩
      (by
        intro e he
        rcases (m2 e).1 he with he' | ⟨he', rfl⟩
        · exact part _ (by show n.base ≤ stop; omega)
            (by show stop + (n.base + n.size - stop) ≤ _; omega) e ((m1' e).2 he')
        · rintro ⟨b, b1, b2⟩
          unfold Covers at b1 b2
          simp only at b1 b2
          omega)
    refine ⟨t3, r1, r2, fun x => ?_⟩
    rw [r3, m2]
    constructor
    · rintro (h' | h' | h')
      · exact .inr (.inr ⟨h, h'⟩)
      · exact .inl h'
      · exact .inr (.inl h')
    · rintro (h' | h' | h')
      · exact .inr (.inl h')
      · exact .inr (.inr h')
      · exact .inl h'.2
  · rename_i h
    refine ⟨t2, rfl, v2, fun x => ?_⟩
    rw [m2]
    constructor
    · rintro (h' | h')
      · exact .inl h'
      · exact .inr (.inl h')
    · rintro (h' | h' | h')
      · exact .inl h'
      · exact .inr h'
      · exact absurd h'.1 h

theorem length_le_of_subset : ∀ l m : List Ent, l.Nodup → l ⊆ m → l.length ≤ m.length := by
  intro l
  induction l with
  | nil => intro m _ _; simp
  | cons x l ih =>
    intro m hn hs
    rw [List.nodup_cons] at hn
    have hx : x ∈ m := hs (by simp)
    have := ih (m.erase x) hn.2 (by
      intro y hy
      rw [List.mem_erase_of_ne (by rintro rfl; exact hn.1 hy)]
      exact hs (by simp [hy]))
    rw [List.length_erase_of_mem hx] at this
    have := List.length_pos_of_mem hx
    simp only [List.length_cons]
    omega

/-! ## C18: specification

A map from addresses to the region they belong to: a number naming the addition the region stems
from, and its flags. -/

/-- The specification state: the map and the next unused name. -/
structure Spec where
  m : Nat → Option (Nat × Nat)
  next : Nat

/-- Nothing tracked. -/
def Spec.empty : Spec := ⟨fun _ => none, 0⟩

/-- The events. -/
inductive Op
  | add (start stop flags : Nat)
  | remove (start stop : Nat)
  | adjust (start newEnd : Nat)
  deriving Repr

/-- All addresses from `a` to `b` are in the same region as `a`. -/
def Spec.run (S : Spec) (a b : Nat) : Prop := ∀ c, a ≤ c → c ≤ b → S.m c = S.m a

open Classical in
/-- The effect of an event on the map. -/
noncomputable def Spec.step (S : Spec) : Op → Spec
  | .add s e f => ⟨fun a => if s ≤ a ∧ a < e then some (S.next, f) else S.m a, S.next + 1⟩
  | .remove s e => ⟨fun a => if s ≤ a ∧ a < e then none else S.m a, S.next⟩
  | .adjust s e => match S.m s with
    | none => S
    | some (_, f) => ⟨fun a => if (s ≤ a ∧ a < e) ∨ (a < s ∧ S.run a s) then some (S.next, f)
        else if s ≤ a ∧ S.run s a then none else S.m a, S.next + 1⟩

/-- The documented contract: an added range is free; a removed range meets only one region
("we assume overlaps at most one node", common/heap.c:821); an adjusted region
does not grow into another one. -/
def Spec.Ok (S : Spec) : Op → Prop
  | .add s e _ => s < e ∧ e < W ∧ ∀ a, s ≤ a → a < e → S.m a = none
  | .remove s e => s < e ∧ ∀ a b, s ≤ a → a ≤ b → b < e → S.m a ≠ none → S.m b ≠ none → S.run a b
  | .adjust s e => s < e ∧ e < W ∧ ∀ a, s ≤ a → a < e → S.m a = none ∨ S.run s a

/-- A history respecting the contract. -/
def Spec.OkAll : Spec → List Op → Prop
  | _, [] => True
  | S, op :: ops => S.Ok op ∧ Spec.OkAll (S.step op) ops

/-- Run a history on the model. -/
def runHeap (d : Bool) : List Op → Tree → Option Tree
  | [], t => some t
  | .add s e f :: ops, t => (heapAdd d s e f t).bind fun t => runHeap d ops t
  | .remove s e :: ops, t => (heapRemove d s e t).bind fun r => runHeap d ops r.1
  | .adjust s e :: ops, t => (heapAdjust d s e t).bind fun r => runHeap d ops r.1

/-- The tree represents the map. -/
structure Rel (t : Tree) (S : Spec) : Prop where
  val : Valid t
  cov : ∀ e ∈ toList t, ∃ i, i < S.next ∧ ∀ a, Covers e a → S.m a = some (i, e.client)
  dom : ∀ a, S.m a ≠ none → ∃ e ∈ toList t, Covers e a
  maxi : ∀ e ∈ toList t, S.m (e.base + e.size) ≠ S.m e.base

theorem Rel.lookup {t : Tree} {S : Spec} (h : Rel t S) (a : Nat) :
    (S.m a).map (·.2) = (inNode a t).map (·.client) := by
  cases hi : inNode a t with
  | none =>
    rw [C15_in_node_none a h.val] at hi
    cases hm : S.m a with
    | none => rfl
    | some p =>
      obtain ⟨e, h1, h2⟩ := h.dom a (by rw [hm]; simp)
      exact absurd h2 (hi e h1)
  | some e =>
    obtain ⟨h1, h2⟩ := (C15_in_node a e h.val).1 hi
    obtain ⟨i, _, hc⟩ := h.cov e h1
    rw [hc a h2]; rfl

/-- A run that starts in a stored interval stays in it. -/
theorem Rel.run_in {t : Tree} {S : Spec} (h : Rel t S) {e : Ent} (he : e ∈ toList t) {a b : Nat}
    (ha : Covers e a) (hab : a ≤ b) (hr : S.run a b) : Covers e b := by
  obtain ⟨i, _, hc⟩ := h.cov e he
  unfold Covers at *
  refine ⟨by omega, ?_⟩
  by_cases hb : b < e.base + e.size
  · exact hb
  · exfalso
    apply h.maxi e he
    rw [hr (e.base + e.size) (by omega) (by omega), hc a ha,
      hc e.base ⟨Nat.le_refl _, by have := (h.val.good e he).1; omega⟩]

/-- Within a stored interval everything is one run. -/
theorem Rel.in_run {t : Tree} {S : Spec} (h : Rel t S) {e : Ent} (he : e ∈ toList t) {a b : Nat}
    (ha : Covers e a) (hb : Covers e b) : S.run a b := by
  obtain ⟨i, _, hc⟩ := h.cov e he
  intro c h1 h2
  rw [hc a ha, hc c ⟨by have := ha.1; omega, by have := hb.2; omega⟩]

theorem Rel.next_of {t : Tree} {S : Spec} (h : Rel t S) {a i f : Nat} (hm : S.m a = some (i, f)) :
    i < S.next := by
  obtain ⟨e, h1, h2⟩ := h.dom a (by rw [hm]; simp)
  obtain ⟨j, hj, hc⟩ := h.cov e h1
  have := hc a h2
  rw [hm] at this
  simp at this
  omega

theorem Rel.add (d : Bool) {t : Tree} {S : Spec} (h : Rel t S) {s e f : Nat}
    (hok : S.Ok (.add s e f)) : ∃ t', heapAdd d s e f t = some t' ∧ Rel t' (S.step (.add s e f)) := by
  obtain ⟨h1, h2, h3⟩ := hok
  unfold heapAdd
  rw [sub64_eq (by omega) h2]
  have hno : ∀ x ∈ toList t, ¬ Overlap ⟨s, e - s, f⟩ x := by
    rintro x hx ⟨a, a1, a2⟩
    obtain ⟨i, _, hc⟩ := h.cov x hx
    have := hc a a2
    unfold Covers at a1
    simp only at a1
    rw [h3 a (by omega) (by omega)] at this
    simp at this
  obtain ⟨t', r1, r2, r3⟩ := ins_fresh (d := d) (n := ⟨s, e - s, f⟩) h.val
    ⟨by show 0 < e - s; omega, by show s + (e - s) < W; omega⟩ hno
  have hse : s + (e - s) = e := by omega
  refine ⟨t', r1, r2, ?_, ?_, ?_⟩
  · intro x hx
    rcases (r3 x).1 hx with rfl | hx
    · refine ⟨S.next, by simp [Spec.step], fun a ha => ?_⟩
      unfold Covers at ha
      simp only at ha
      simp only [Spec.step]
      rw [if_pos (by omega)]
    · obtain ⟨i, hi, hc⟩ := h.cov x hx
      refine ⟨i, by simp only [Spec.step]; omega, fun a ha => ?_⟩
      simp only [Spec.step]
      have hm := hc a ha
      rw [if_neg, hm]
      rintro ⟨q1, q2⟩
      rw [h3 a q1 q2] at hm
      simp at hm
  · intro a ha
    simp only [Spec.step] at ha
    split at ha
    · rename_i hc
      exact ⟨_, (r3 _).2 (.inl rfl), by unfold Covers; simp only; omega⟩
    · obtain ⟨x, hx, hc⟩ := h.dom a ha
      exact ⟨x, (r3 x).2 (.inr hx), hc⟩
  · intro x hx
    rcases (r3 x).1 hx with rfl | hx
    · simp only [Spec.step, hse]
      rw [if_neg (by omega), if_pos (by omega)]
      intro he
      have := h.next_of he
      omega
    · simp only [Spec.step]
      have hb : ¬ (s ≤ x.base ∧ x.base < e) := by
        rintro ⟨q1, q2⟩
        obtain ⟨i, _, hc⟩ := h.cov x hx
        have := hc x.base ⟨Nat.le_refl _, by have := (h.val.good x hx).1; omega⟩
        rw [h3 _ q1 q2] at this
        simp at this
      rw [if_neg hb]
      split
      · intro he
        have := h.next_of he.symm
        omega
      · exact h.maxi x hx

theorem Rel.remove (d : Bool) {t : Tree} {S : Spec} (h : Rel t S) {s e : Nat}
    (hok : S.Ok (.remove s e)) : ∃ r, heapRemove d s e t = some r ∧
      Rel r.1 (S.step (.remove s e)) ∧ (r.2 = true ↔ ∃ a, s ≤ a ∧ a < e ∧ S.m a ≠ none) := by
  obtain ⟨h1, h2⟩ := hok
  obtain ⟨o1, o2⟩ := C15_overlaps s e h1 h.val
  unfold heapRemove
  split
  · rename_i hnone
    have hfree : ∀ a, s ≤ a → a < e → S.m a = none := by
      intro a q1 q2
      by_cases hm : S.m a = none
      · exact hm
      · obtain ⟨x, hx, hc⟩ := h.dom a hm
        exact absurd hc (o2 hnone x hx a q1 q2)
    have hS : (S.step (.remove s e)).m = S.m := by
      funext a
      simp only [Spec.step]
      split
      · rename_i hc; exact (hfree a hc.1 hc.2).symm
      · rfl
    refine ⟨_, rfl, ⟨h.val, ?_, ?_, ?_⟩, ?_⟩
    · rw [hS]; exact h.cov
    · rw [hS]; exact h.dom
    · rw [hS]; exact h.maxi
    · constructor
      · simp
      · rintro ⟨a, q1, q2, q3⟩; exact absurd (hfree a q1 q2) q3
  · rename_i n hn
    obtain ⟨hm, a0, a1, a2, a3⟩ := o1 n hn
    obtain ⟨t', c1, c2, c3⟩ := cut_spec d h1 h.val hm ⟨a0, a1, a2, a3⟩
    have gn := h.val.good n hm
    obtain ⟨i, hi, hc⟩ := h.cov n hm
    -- everything tracked in the range belongs to `n`
    have only : ∀ a, s ≤ a → a < e → S.m a ≠ none → Covers n a := by
      intro a q1 q2 q3
      rcases Nat.le_total a0 a with hle | hle
      · exact h.run_in hm a3 hle (h2 a0 a a1 hle q2 (by rw [hc a0 a3]; simp) q3)
      · obtain ⟨x, hx, hxc⟩ := h.dom a q3
        have := h.run_in hx hxc hle (h2 a a0 q1 hle a2 q3 (by rw [hc a0 a3]; simp))
        rw [← covers_inj h.val hx hm this a3]
        exact hxc
    have other : ∀ x ∈ toList t, x ≠ n → ∀ a, Covers x a → ¬ (s ≤ a ∧ a < e) := by
      intro x hx hne a ha ⟨q1, q2⟩
      obtain ⟨j, _, hcx⟩ := h.cov x hx
      exact hne (covers_inj h.val hx hm ha (only a q1 q2 (by rw [hcx a ha]; simp)))
    rw [c1]
    unfold Covers at a3
    refine ⟨_, rfl, ⟨c2, ?_, ?_, ?_⟩, ?_⟩
    · intro x hx
      simp only [Spec.step]
      rcases (c3 x).1 hx with ⟨hx, hne⟩ | ⟨hl, rfl⟩ | ⟨hl, rfl⟩
      · obtain ⟨j, hj, hcx⟩ := h.cov x hx
        refine ⟨j, hj, fun a ha => ?_⟩
        rw [if_neg (other x hx hne a ha), hcx a ha]
      · refine ⟨i, hi, fun a ha => ?_⟩
        unfold Covers at ha
        simp only at ha
        rw [if_neg (by omega), hc a (by unfold Covers; omega)]
      · refine ⟨i, hi, fun a ha => ?_⟩
        unfold Covers at ha
        simp only at ha
        rw [if_neg (by omega), hc a (by unfold Covers; omega)]
    · intro a ha
      simp only [Spec.step] at ha
      split at ha
      · simp at ha
      rename_i hout
      obtain ⟨x, hx, hxc⟩ := h.dom a ha
      by_cases hxn : x = n
      · subst hxn
        unfold Covers at hxc
        by_cases hlt : a < s
        · exact ⟨_, (c3 _).2 (.inr (.inl ⟨by omega, rfl⟩)), by unfold Covers; simp only; omega⟩
        · exact ⟨_, (c3 _).2 (.inr (.inr ⟨by omega, rfl⟩)), by unfold Covers; simp only; omega⟩
      · exact ⟨x, (c3 x).2 (.inl ⟨hx, hxn⟩), hxc⟩
    · intro x hx
      simp only [Spec.step]
      rcases (c3 x).1 hx with ⟨hx, hne⟩ | ⟨hl, rfl⟩ | ⟨hl, rfl⟩
      · have gx := h.val.good x hx
        have hb : Covers x x.base := ⟨Nat.le_refl _, by have := gx.1; omega⟩
        rw [if_neg (other x hx hne _ hb)]
        obtain ⟨j, hj, hcx⟩ := h.cov x hx
        split
        · rw [hcx _ hb]; simp
        · exact h.maxi x hx
      · simp only
        rw [show n.base + (s - n.base) = s by omega, if_pos (by omega), if_neg (by omega),
          hc n.base ⟨Nat.le_refl _, by have := gn.1; omega⟩]
        simp
      · simp only
        rw [show e + (n.base + n.size - e) = n.base + n.size by omega, if_neg (by omega),
          if_neg (by omega), hc e (by unfold Covers; omega)]
        have := h.maxi n hm
        rw [hc n.base ⟨Nat.le_refl _, by have := gn.1; omega⟩] at this
        exact this
    · constructor
      · intro _; exact ⟨a0, a1, a2, by rw [hc a0 (by unfold Covers; omega)]; simp⟩
      · intro _; rfl

theorem Rel.adjust (d : Bool) {t : Tree} {S : Spec} (h : Rel t S) {s e : Nat}
    (hok : S.Ok (.adjust s e)) : ∃ r, heapAdjust d s e t = some r ∧
      Rel r.1 (S.step (.adjust s e)) ∧ (r.2 = true ↔ S.m s ≠ none) := by
  obtain ⟨h1, h2, h4⟩ := hok
  have hlk := h.lookup s
  unfold heapAdjust
  split
  · rename_i hnone
    rw [hnone] at hlk
    have hm : S.m s = none := by simpa using hlk
    refine ⟨_, rfl, ?_, by simp [hm]⟩
    simp only [Spec.step, hm]
    exact h
  · rename_i n hn
    obtain ⟨hmem, hcv⟩ := (C15_in_node s n h.val).1 hn
    obtain ⟨i, hi, hc⟩ := h.cov n hmem
    have gn := h.val.good n hmem
    have gn1 := gn.1
    have hms := hc s hcv
    have hcv1 : n.base ≤ s := hcv.1
    have hcv2 : s < n.base + n.size := hcv.2
    have hin : ∀ a, ((s ≤ a ∧ a < e) ∨ (a < s ∧ S.run a s)) ↔ n.base ≤ a ∧ a < e := by
      intro a
      constructor
      · rintro (q | ⟨q1, q2⟩)
        · exact ⟨by omega, q.2⟩
        · have hma : S.m a ≠ none := by rw [← q2 s (by omega) (by omega), hms]; simp
          obtain ⟨x, hx, hxa⟩ := h.dom a hma
          have := covers_inj h.val hx hmem (h.run_in hx hxa (by omega) q2) hcv
          subst this
          exact ⟨hxa.1, by omega⟩
      · rintro ⟨q1, q2⟩
        by_cases q : s ≤ a
        · exact .inl ⟨q, q2⟩
        · exact .inr ⟨by omega, h.in_run hmem ⟨q1, by omega⟩ hcv⟩
    obtain ⟨t1, e1, v1, m1⟩ := C15_delete n.base h.val
    have m1' : ∀ x, x ∈ toList t1 ↔ x ∈ toList t ∧ x ≠ n := by
      intro x
      rw [m1]
      constructor
      · rintro ⟨q1, q2⟩; exact ⟨q1, fun q => q2 (by rw [q])⟩
      · rintro ⟨q1, q2⟩; exact ⟨q1, fun q => q2 (base_inj h.val q1 hmem q)⟩
    have other : ∀ x ∈ toList t, x ≠ n → ∀ a, Covers x a → ¬ (n.base ≤ a ∧ a < e) := by
      intro x hx hne a ha ⟨q1, q2⟩
      by_cases hsa : a < s
      · exact hne (covers_inj h.val hx hmem ha ⟨q1, by omega⟩)
      replace q1 : s ≤ a := by omega
      obtain ⟨j, _, hcx⟩ := h.cov x hx
      rcases h4 a q1 q2 with hm | hr
      · rw [hcx a ha] at hm; simp at hm
      · exact hne (covers_inj h.val hx hmem ha (h.run_in hmem hcv q1 hr))
    rw [e1, Option.bind_some, sub64_eq (by omega) h2]
    obtain ⟨t', r1, r2, r3⟩ := ins_fresh (d := d) (n := ⟨n.base, e - n.base, n.client⟩) v1
      ⟨by show 0 < e - n.base; omega, by show n.base + (e - n.base) < W; omega⟩ (by
        rintro x hx ⟨a, a1, a2⟩
        rw [m1'] at hx
        unfold Covers at a1
        simp only at a1
        exact other x hx.1 hx.2 a a2 ⟨by omega, by omega⟩)
    rw [r1]
    refine ⟨_, rfl, ?_, by simp [hms]⟩
    have hrun : ∀ a, s ≤ a → (S.run s a ↔ a < n.base + n.size) := by
      intro a ha
      constructor
      · intro hr; exact (h.run_in hmem hcv ha hr).2
      · intro hr; exact h.in_run hmem hcv ⟨by omega, hr⟩
    have hoth : ∀ x ∈ toList t, x ≠ n → ∀ a, Covers x a → ¬ (s ≤ a ∧ S.run s a) := by
      intro x hx hne a ha ⟨q1, q2⟩
      exact hne (covers_inj h.val hx hmem ha (h.run_in hmem hcv q1 q2))
    simp only [Spec.step, hms, hin]
    refine ⟨r2, ?_, ?_, ?_⟩
    · intro x hx
      rcases (r3 x).1 hx with rfl | hx
      · refine ⟨S.next, by simp, fun a ha => ?_⟩
        unfold Covers at ha
        simp only at ha
        simp only
        rw [if_pos (by omega)]
      · rw [m1'] at hx
        obtain ⟨j, hj, hcx⟩ := h.cov x hx.1
        refine ⟨j, by simp only; omega, fun a ha => ?_⟩
        simp only
        rw [if_neg (other x hx.1 hx.2 a ha), if_neg (hoth x hx.1 hx.2 a ha), hcx a ha]
    · intro a ha
      simp only at ha
      split at ha
      · rename_i q
        exact ⟨_, (r3 _).2 (.inl rfl), by unfold Covers; simp only; omega⟩
      · split at ha
        · simp at ha
        rename_i q1 q2
        obtain ⟨x, hx, hxc⟩ := h.dom a ha
        refine ⟨x, (r3 x).2 (.inr ((m1' x).2 ⟨hx, ?_⟩)), hxc⟩
        rintro rfl
        apply q2
        unfold Covers at hxc
        exact ⟨by omega, (hrun a (by omega)).2 hxc.2⟩
    · intro x hx
      rcases (r3 x).1 hx with rfl | hx
      · simp only
        rw [show n.base + (e - n.base) = e by omega, if_neg (show ¬ (n.base ≤ e ∧ e < e) by omega),
          if_pos (show n.base ≤ n.base ∧ n.base < e by omega)]
        split
        · simp
        · intro q
          have := h.next_of q
          omega
      · rw [m1'] at hx
        simp only
        have gx := h.val.good x hx.1
        have hb : Covers x x.base := ⟨Nat.le_refl _, by have := gx.1; omega⟩
        obtain ⟨j, hj, hcx⟩ := h.cov x hx.1
        rw [if_neg (other x hx.1 hx.2 _ hb), if_neg (hoth x hx.1 hx.2 _ hb)]
        split
        · rw [hcx _ hb]
          intro q
          simp only [Option.some.injEq, Prod.mk.injEq] at q
          omega
        · split
          · rw [hcx _ hb]; simp
          · exact h.maxi x hx.1

theorem Rel.empty : Rel .nil .empty :=
  ⟨Valid.nil, by simp [toList], by simp [Spec.empty], by simp [toList]⟩

theorem Rel.history (d : Bool) (ops : List Op) : ∀ (t : Tree) (S : Spec), Rel t S → S.OkAll ops →
    ∃ t', runHeap d ops t = some t' ∧ Rel t' (ops.foldl Spec.step S) := by
  induction ops with
  | nil => intro t S h _; exact ⟨t, rfl, h⟩
  | cons op ops ih =>
    intro t S h hok
    obtain ⟨h1, h2⟩ := hok
    cases op with
    | add s e f =>
      obtain ⟨t1, e1, r1⟩ := h.add d h1
      obtain ⟨t', e2, r2⟩ := ih t1 _ r1 h2
      exact ⟨t', by simp [runHeap, e1, e2], r2⟩
    | remove s e =>
      obtain ⟨t1, e1, r1, _⟩ := h.remove d h1
      obtain ⟨t', e2, r2⟩ := ih t1.1 _ r1 h2
      exact ⟨t', by simp [runHeap, e1, e2], r2⟩
    | adjust s e =>
      obtain ⟨t1, e1, r1, _⟩ := h.adjust d h1
      obtain ⟨t', e2, r2⟩ := ih t1.1 _ r1 h2
      exact ⟨t', by simp [runHeap, e1, e2], r2⟩

/-- C18: after any history respecting the contract, in debug and release builds, an address is in a
heap region iff it was added and not removed since, and its flags are the ones it was added with;
a range is "entirely in" iff it lies within one region; the bounds reported for an address are
those of its region. -/
theorem C18_heap_regions (d : Bool) (ops : List Op) (hok : Spec.empty.OkAll ops) :
    ∃ t, runHeap d ops .nil = some t ∧
      (∀ pc, isInHeap pc t = true ↔ (ops.foldl Spec.step .empty).m pc ≠ none) ∧
      (∀ pc i f, (ops.foldl Spec.step .empty).m pc = some (i, f) → heapFlags pc t = f) ∧
      (∀ s e, s < e → (isEntirelyInHeap s e t = true ↔
        (ops.foldl Spec.step .empty).m s ≠ none ∧ (ops.foldl Spec.step .empty).run s (e - 1))) ∧
      (∀ pc b e f, heapBounds pc t = some (b, e, f) ↔
        b ≤ pc ∧ pc < e ∧ (∃ i, ∀ a, b ≤ a → a < e →
          (ops.foldl Spec.step .empty).m a = some (i, f)) ∧
        (ops.foldl Spec.step .empty).m e ≠ (ops.foldl Spec.step .empty).m pc ∧
        (∀ p, p + 1 = b →
          (ops.foldl Spec.step .empty).m p ≠ (ops.foldl Spec.step .empty).m pc)) := by
  obtain ⟨t, h1, h⟩ := Rel.history d ops .nil .empty Rel.empty hok
  refine ⟨t, h1, ?_, ?_, ?_, ?_⟩
  · intro pc
    have := h.lookup pc
    unfold isInHeap
    cases hi : inNode pc t <;> rw [hi] at this
    · simp at this; simp [this]
    · simp only [Option.map_some] at this
      simp only [Option.isSome_some, true_iff]
      intro hn
      rw [hn] at this
      simp at this
  · intro pc i f hm
    have := h.lookup pc
    rw [hm] at this
    unfold heapFlags
    cases hi : inNode pc t <;> rw [hi] at this
    · simp at this
    · simpa using this.symm
  · intro s e hse
    obtain ⟨o1, o2⟩ := C15_overlaps s e hse h.val
    unfold isEntirelyInHeap
    split
    · rename_i hnone
      simp only [Bool.false_eq_true, false_iff, not_and]
      intro hm
      obtain ⟨x, hx, hc⟩ := h.dom s hm
      exact absurd hc (o2 hnone x hx s (by omega) hse)
    · rename_i n hn
      obtain ⟨hmem, a, a1, a2, a3⟩ := o1 n hn
      rw [(h.val.good n hmem).last]
      obtain ⟨i, hi, hc⟩ := h.cov n hmem
      simp only [ge_iff_le, decide_eq_true_eq]
      constructor
      · rintro ⟨q1, q2⟩
        have hs : Covers n s := ⟨q1, by omega⟩
        exact ⟨by rw [hc s hs]; simp, h.in_run hmem hs ⟨by omega, by omega⟩⟩
      · rintro ⟨q1, q2⟩
        obtain ⟨x, hx, hxc⟩ := h.dom s q1
        have hxe := h.run_in hx hxc (by omega) q2
        have : Covers x a := ⟨by have := hxc.1; omega, by have := hxe.2; omega⟩
        rw [covers_inj h.val hx hmem this a3] at hxc hxe
        unfold Covers at hxc hxe
        omega
  · intro pc b e f
    unfold heapBounds
    have hin := C15_in_node pc
    split
    · rename_i hnone
      simp only [reduceCtorEq, false_iff, not_and]
      intro q1 q2 ⟨i, q3⟩
      obtain ⟨x, hx, hc⟩ := h.dom pc (by rw [q3 pc q1 q2]; simp)
      exact absurd hc ((C15_in_node_none pc h.val).1 hnone x hx)
    · rename_i n hn
      obtain ⟨hmem, hcv⟩ := (hin n h.val).1 hn
      have gn := h.val.good n hmem
      rw [gn.last]
      obtain ⟨i, hi, hc⟩ := h.cov n hmem
      have hb : Covers n n.base := ⟨Nat.le_refl _, by have := gn.1; omega⟩
      have hleft : ∀ p, p + 1 = n.base → (ops.foldl Spec.step .empty).m p ≠
          (ops.foldl Spec.step .empty).m pc := by
        intro p hp hmp
        rw [hc pc hcv] at hmp
        obtain ⟨x, hx, hxc⟩ := h.dom p (by rw [hmp]; simp)
        have hne : x ≠ n := by rintro rfl; have := hxc.1; omega
        have hnc : ¬ Covers x n.base := fun q => hne (covers_inj h.val hx hmem q hb)
        have hxe : x.base + x.size = n.base := by unfold Covers at hxc hnc; omega
        apply h.maxi x hx
        obtain ⟨j, _, hcx⟩ := h.cov x hx
        rw [hxe, hc _ hb, hcx x.base ⟨Nat.le_refl _, by have := (h.val.good x hx).1; omega⟩,
          ← hcx p hxc, hmp]
      simp only [Option.some.injEq, Prod.mk.injEq]
      constructor
      · rintro ⟨rfl, rfl, rfl⟩
        refine ⟨hcv.1, hcv.2, ⟨i, fun a q1 q2 => hc a ⟨q1, q2⟩⟩, ?_, hleft⟩
        have := h.maxi n hmem
        rw [hc _ hb] at this
        rw [hc pc hcv]; exact this
      · rintro ⟨q1, q2, ⟨j, q3⟩, q4, q5⟩
        have e0 := q3 pc q1 q2
        rw [e0] at q4 q5
        have e1 := hc pc hcv
        rw [e0] at e1
        obtain ⟨rfl, rfl⟩ : j = i ∧ f = n.client := by simpa using e1
        rw [e0] at hleft
        have hmax := h.maxi n hmem
        rw [hc _ hb] at hmax
        unfold Covers at hcv
        refine ⟨?_, ?_, rfl⟩
        · rcases Nat.lt_trichotomy n.base b with hlt | heq | hgt
          · exfalso
            exact q5 (b - 1) (by omega) (hc (b - 1) ⟨by omega, by omega⟩)
          · exact heq
          · exfalso
            exact hleft (n.base - 1) (by omega) (q3 (n.base - 1) (by omega) (by omega))
        · rcases Nat.lt_trichotomy (n.base + n.size) e with hlt | heq | hgt
          · exact absurd (q3 _ (by omega) hlt) hmax
          · exact heq
          · exact absurd (hc e ⟨by omega, by omega⟩) q4

/-- A history respecting the contract: two regions, one split by a removal, one grown. -/
example : ∃ t, runHeap false [.add 100 200 1, .add 300 400 2, .remove 120 150, .adjust 300 450] .nil
    = some t ∧ isInHeap 119 t = true ∧ isInHeap 120 t = false ∧ heapFlags 160 t = 1 ∧
      heapBounds 420 t = some (300, 450, 2) ∧ isEntirelyInHeap 110 160 t = false :=
  ⟨_, rfl, by decide, by decide, by decide, by decide, by decide⟩

example : Spec.empty.OkAll [.add 100 200 1, .remove 120 150, .add 130 140 2] := by
  refine ⟨⟨by omega, by simp [W], fun _ _ _ => rfl⟩, ⟨by omega, ?_⟩, ⟨by omega, by simp [W], ?_⟩,
    trivial⟩
  · intro a b h1 h2 h3 _ _ c h4 h5
    simp only [Spec.step]
    rw [if_pos (by omega), if_pos (by omega)]
  · intro a h1 h2
    simp only [Spec.step]
    rw [if_pos (by omega)]

/-- The contract is needed: removing a range spanning two regions trims only one of them. -/
theorem C18_remove_two_regions :
    ∃ t, runHeap false [.add 100 200 1, .add 200 300 2, .remove 150 250] .nil = some t ∧
      isInHeap 220 t = true :=
  ⟨_, rfl, by decide⟩

/-! ## C19: anonymous mappings -/

/-- A tree holds exactly the addresses of `B`. -/
def Holds (t : Tree) (B : Nat → Prop) : Prop :=
  Valid t ∧ ∀ a, B a ↔ ∃ e ∈ toList t, Covers e a

/-- C19: unmapping any range, whatever it overlaps, removes exactly its addresses, and reports
whether there were any (debug and release builds). -/
theorem C19_remove (d : Bool) {t : Tree} {B : Nat → Prop} (h : Holds t B) {base size : Nat}
    (hs : 0 < size) (hw : base + size < W) :
    ∃ t' f, MmapRemove d base size t (some (t', f)) ∧
      Holds t' (fun a => B a ∧ ¬ (base ≤ a ∧ a < base + size)) ∧
      (f = true ↔ ∃ a, B a ∧ base ≤ a ∧ a < base + size) := by
  unfold MmapRemove
  rw [add64_eq hw]
  -- intervals still meeting the range
  let meets : Ent → Bool := fun e => decide (e.base < base + size ∧ base < e.base + e.size)
  have hmeets : ∀ e : Ent, 0 < e.size → (meets e = true ↔ ∃ a, base ≤ a ∧ a < base + size ∧
      Covers e a) := by
    intro e he
    simp only [meets, decide_eq_true_eq]
    constructor
    · intro q; exact ⟨max base e.base, by omega, by omega, by unfold Covers; omega⟩
    · rintro ⟨a, q1, q2, q3⟩; unfold Covers at q3; omega
  obtain ⟨r, h1, h2⟩ := Runs.of_inv (step := mmapRemoveStep d base (base + size))
    (fun s => Valid s.1 ∧ (∀ a, ¬ (base ≤ a ∧ a < base + size) →
        (B a ↔ ∃ e ∈ toList s.1, Covers e a)) ∧
      (∀ e ∈ toList s.1, ∀ a, Covers e a → B a) ∧
      (s.2 = true → ∃ a, B a ∧ base ≤ a ∧ a < base + size) ∧
      (s.2 = false → s.1 = t))
    (fun r => ∃ s : Tree × Bool, r = some s ∧
      Holds s.1 (fun a => B a ∧ ¬ (base ≤ a ∧ a < base + size)) ∧
      (s.2 = true ↔ ∃ a, B a ∧ base ≤ a ∧ a < base + size))
    (fun s => ((toList s.1).filter meets).length)
    (by
      rintro s s' ⟨i1, i2, i3, i4, i5⟩ hst
      unfold mmapRemoveStep at hst
      split at hst
      · simp at hst
      rename_i n hn
      obtain ⟨hm, a, a1, a2, a3⟩ := (C15_overlaps base (base + size) (by omega) i1).1 n hn
      obtain ⟨t', c1, c2, c3⟩ := cut_spec d (by omega) i1 hm ⟨a, a1, a2, a3⟩
      rw [c1] at hst
      obtain rfl : (t', true) = s' := by simpa using hst
      have gn := i1.good n hm
      refine ⟨⟨c2, ?_, ?_, ?_, by simp⟩, ?_⟩
      · intro b hb
        rw [i2 b hb]
        constructor
        · rintro ⟨e, he, hc⟩
          by_cases hen : e = n
          · subst hen
            unfold Covers at hc
            by_cases hlt : b < base
            · exact ⟨_, (c3 _).2 (.inr (.inl ⟨by omega, rfl⟩)), by unfold Covers; simp only; omega⟩
            · exact ⟨_, (c3 _).2 (.inr (.inr ⟨by omega, rfl⟩)), by unfold Covers; simp only; omega⟩
          · exact ⟨e, (c3 e).2 (.inl ⟨he, hen⟩), hc⟩
        · rintro ⟨e, he, hc⟩
          rcases (c3 e).1 he with q | ⟨q, rfl⟩ | ⟨q, rfl⟩
          · exact ⟨e, q.1, hc⟩
          · exact ⟨n, hm, by unfold Covers at *; simp only at hc; omega⟩
          · exact ⟨n, hm, by unfold Covers at *; simp only at hc; omega⟩
      · intro e he b hb
        rcases (c3 e).1 he with q | ⟨q, rfl⟩ | ⟨q, rfl⟩
        · exact i3 e q.1 b hb
        · exact i3 n hm b (by unfold Covers at *; simp only at hb; omega)
        · exact i3 n hm b (by unfold Covers at *; simp only at hb; omega)
      · intro _; exact ⟨a, i3 n hm a a3, a1, a2⟩
      · show ((toList t').filter meets).length < ((toList s.1).filter meets).length
        have nd : ∀ t : Tree, Valid t → (toList t).Nodup := by
          intro t hv
          have := hv.ord
          unfold Ordered at this
          exact this.imp (fun q => by rintro rfl; omega)
        have hsub : (toList t').filter meets ⊆ ((toList s.1).filter meets).erase n := by
          intro e he
          rw [List.mem_filter] at he
          have nds := (nd _ i1).filter meets
          rw [List.Nodup.mem_erase_iff nds, List.mem_filter]
          rcases (c3 e).1 he.1 with q | ⟨q, rfl⟩ | ⟨q, rfl⟩
          · exact ⟨q.2, q.1, he.2⟩
          · exfalso
            have := he.2
            simp only [meets, decide_eq_true_eq] at this
            omega
          · exfalso
            have := he.2
            simp only [meets, decide_eq_true_eq] at this
            omega
        have hlen : ((toList t').filter meets).length ≤ (((toList s.1).filter meets).erase n).length :=
          length_le_of_subset _ _ ((nd _ c2).filter meets) hsub
        have hmem : n ∈ (toList s.1).filter meets :=
          List.mem_filter.2 ⟨hm, (hmeets n gn.1).2 ⟨a, a1, a2, a3⟩⟩
        rw [List.length_erase_of_mem hmem] at hlen
        have := List.length_pos_of_mem hmem
        omega)
    (by
      rintro s r ⟨i1, i2, i3, i4, i5⟩ hst
      unfold mmapRemoveStep at hst
      split at hst
      · rename_i hnone
        obtain rfl : some s = r := by simpa using hst
        have hno := (C15_overlaps base (base + size) (by omega) i1).2 hnone
        refine ⟨s, rfl, ⟨i1, ?_⟩, ?_⟩
        · intro a
          constructor
          · rintro ⟨q1, q2⟩; exact (i2 a q2).1 q1
          · rintro ⟨e, he, hc⟩
            exact ⟨i3 e he a hc, fun q => hno e he a q.1 q.2 hc⟩
        · constructor
          · exact i4
          · rintro ⟨a, q1, q2, q3⟩
            cases hs2 : s.2 with
            | true => rfl
            | false =>
              exfalso
              obtain ⟨e, he, hc⟩ := (h.2 a).1 q1
              rw [← i5 hs2] at he
              exact hno e he a q2 q3 hc
      · rename_i n hn
        obtain ⟨hm, a, a1, a2, a3⟩ := (C15_overlaps base (base + size) (by omega) i1).1 n hn
        obtain ⟨t', c1, c2, c3⟩ := cut_spec d (by omega) i1 hm ⟨a, a1, a2, a3⟩
        rw [c1] at hst
        simp at hst)
    (t, false) ⟨h.1, fun a _ => h.2 a, fun e he a ha => (h.2 a).2 ⟨e, he, ha⟩, by simp, by simp⟩
  obtain ⟨⟨t', f⟩, rfl, h3, h4⟩ := h2
  exact ⟨t', f, h1, h3, h4⟩

/-- C19, adding a range none of whose addresses is tracked (both builds). -/
theorem C19_add_disjoint_partial (d : Bool) {t : Tree} {B : Nat → Prop} (h : Holds t B)
    {base size : Nat} (hs : 0 < size) (hw : base + size < W)
    (hno : ∀ a, base ≤ a → a < base + size → ¬ B a) :
    ∃ t', mmapAdd d base size t = some t' ∧
      Holds t' (fun a => B a ∨ (base ≤ a ∧ a < base + size)) := by
  obtain ⟨t', h1, h2, h3⟩ := C15_insert_fresh (d := d) (n := ⟨base, size, 0⟩) h.1 ⟨hs, hw⟩ (by
    rintro e he ⟨a, a1, a2⟩
    exact hno a a1.1 a1.2 ((h.2 a).2 ⟨e, he, a2⟩))
  refine ⟨t', by simp [mmapAdd, h1], h2, fun a => ?_⟩
  show (B a ∨ _) ↔ _
  rw [h.2 a]
  constructor
  · rintro (⟨e, he, hc⟩ | q)
    · exact ⟨e, (h3 e).2 (.inr he), hc⟩
    · exact ⟨_, (h3 _).2 (.inl rfl), q⟩
  · rintro ⟨e, he, hc⟩
    rcases (h3 e).1 he with rfl | he
    · exact .inr hc
    · exact .inl ⟨e, he, hc⟩

/-- C19, adding a range that meets one stored mapping (debug builds): the two are merged. -/
theorem C19_add_one_partial {t : Tree} {B : Nat → Prop} (h : Holds t B)
    {base size : Nat} (hs : 0 < size) (hw : base + size < W) {n : Ent} (hn : n ∈ toList t)
    (hon : Overlap ⟨base, size, 0⟩ n) (hone : ∀ e ∈ toList t, Overlap ⟨base, size, 0⟩ e → e = n) :
    ∃ t', mmapAdd true base size t = some t' ∧
      Holds t' (fun a => B a ∨ (base ≤ a ∧ a < base + size)) := by
  obtain ⟨e, h1, h2, h3⟩ := C15_insert_overlapping (n := ⟨base, size, 0⟩) h.1 ⟨hs, hw⟩ ⟨n, hn, hon⟩
  obtain rfl := hone e h2 h3
  have ge := h.1.good e h2
  have ge2 := ge.2
  have ho := (overlap_iff (a := ⟨base, size, 0⟩) hs ge.1).1 hon
  simp only at ho
  obtain ⟨t1, e1, v1, m1⟩ := C15_delete e.base h.1
  have m1' : ∀ x, x ∈ toList t1 ↔ x ∈ toList t ∧ x ≠ e := by
    intro x
    rw [m1]
    constructor
    · rintro ⟨q1, q2⟩; exact ⟨q1, fun q => q2 (by rw [q])⟩
    · rintro ⟨q1, q2⟩; exact ⟨q1, fun q => q2 (base_inj h.1 q1 hn q)⟩
  generalize hmb : (if base < e.base then base else e.base) = mb
  generalize hme : (if add64 base size > e.last then add64 base size else e.last) = me
  rw [add64_eq hw, ge.last] at hme
  have b1 : mb ≤ base ∧ mb ≤ e.base ∧ (mb = base ∨ mb = e.base) := by
    subst hmb; split <;> omega
  have b2 : base + size ≤ me ∧ e.base + e.size ≤ me ∧
      (me = base + size ∨ me = e.base + e.size) := by
    subst hme; split <;> omega
  obtain ⟨t', r1, r2, r3⟩ := ins_fresh (d := true) (n := ⟨mb, me - mb, 0⟩) v1
    ⟨by show 0 < me - mb; omega, by show mb + (me - mb) < W; omega⟩ (by
      rintro x hx ⟨a, a1, a2⟩
      rw [m1'] at hx
      unfold Covers at a1
      simp only at a1
      by_cases hc : Covers e a
      · exact h.1.disj x hx.1 e hn hx.2 ⟨a, a2, hc⟩
      · apply hx.2
        apply hone x hx.1
        refine ⟨a, ?_, a2⟩
        unfold Covers at hc ⊢
        simp only
        omega)
  refine ⟨t', ?_, r2, fun a => ?_⟩
  · unfold mmapAdd
    rw [h1]
    simp only [e1, Option.bind_some]
    rw [hmb, add64_eq hw, ge.last, hme, sub64_eq (by omega) (by omega), r1]
  · show (B a ∨ _) ↔ _
    rw [h.2 a]
    constructor
    · rintro (⟨x, hx, hc⟩ | q)
      · by_cases hxe : x = e
        · subst hxe
          exact ⟨_, (r3 _).2 (.inl rfl), by unfold Covers at *; simp only; omega⟩
        · exact ⟨x, (r3 x).2 (.inr ((m1' x).2 ⟨hx, hxe⟩)), hc⟩
      · exact ⟨_, (r3 _).2 (.inl rfl), by unfold Covers; simp only; omega⟩
    · rintro ⟨x, hx, hc⟩
      rcases (r3 x).1 hx with rfl | hx
      · by_cases hce : Covers e a
        · exact .inl ⟨e, hn, hce⟩
        · right
          unfold Covers at hc hce
          simp only at hc
          omega
      · exact .inl ⟨x, ((m1' x).1 hx).1, hc⟩

/-- C19: an address is found iff it is tracked, and then the reported range contains it and is
tracked. -/
theorem C19_lookup {t : Tree} {B : Nat → Prop} (h : Holds t B) (addr : Nat) :
    ((mmapLookup addr t).isSome ↔ B addr) ∧
    ∀ b s, mmapLookup addr t = some (b, s) → b ≤ addr ∧ addr < b + s ∧
      ∀ a, b ≤ a → a < b + s → B a := by
  unfold mmapLookup
  split
  · rename_i hnone
    rw [C15_in_node_none addr h.1] at hnone
    refine ⟨?_, by simp⟩
    rw [h.2]
    simp only [Option.isSome_none, Bool.false_eq_true, false_iff]
    rintro ⟨e, he, hc⟩
    exact hnone e he hc
  · rename_i n hn
    obtain ⟨h1, h2⟩ := (C15_in_node addr n h.1).1 hn
    refine ⟨?_, ?_⟩
    · rw [h.2]
      simp only [Option.isSome_some, true_iff]
      exact ⟨n, h1, h2⟩
    · rintro b s hbs
      obtain ⟨rfl, rfl⟩ : n.base = b ∧ n.size = s := by simpa using hbs
      exact ⟨h2.1, h2.2, fun a q1 q2 => (h.2 a).2 ⟨n, h1, q1, q2⟩⟩

/-- Mapping events. -/
inductive MOp
  | map (base size : Nat)
  | unmap (base size : Nat)

/-- The specification: a set of addresses. -/
def mstep (B : Nat → Prop) : MOp → (Nat → Prop)
  | .map b s => fun a => B a ∨ (b ≤ a ∧ a < b + s)
  | .unmap b s => fun a => B a ∧ ¬ (b ≤ a ∧ a < b + s)

/-- The model's histories. -/
inductive MRun (d : Bool) : List MOp → Tree → Tree → Prop
  | nil (t) : MRun d [] t t
  | map {b s t t1 t' ops} : mmapAdd d b s t = some t1 → MRun d ops t1 t' →
      MRun d (.map b s :: ops) t t'
  | unmap {b s t t1 t' f ops} : MmapRemove d b s t (some (t1, f)) → MRun d ops t1 t' →
      MRun d (.unmap b s :: ops) t t'

/-- Every range is proper and every mapped range is free beforehand (no `MAP_FIXED` over a tracked
mapping). -/
def MOk : (Nat → Prop) → List MOp → Prop
  | _, [] => True
  | B, .map b s :: ops => 0 < s ∧ b + s < W ∧ (∀ a, b ≤ a → a < b + s → ¬ B a) ∧
      MOk (mstep B (.map b s)) ops
  | B, .unmap b s :: ops => 0 < s ∧ b + s < W ∧ MOk (mstep B (.unmap b s)) ops

/-- C19 for histories in which a mapping is only added over untracked addresses (unmappings are
arbitrary).  Full statement: the same without that restriction; it is false, see
`C19_merge_loses` and `C19_release_misses`. -/
theorem C19_history_partial (d : Bool) (ops : List MOp) (hok : MOk (fun _ => False) ops) :
    ∃ t, MRun d ops .nil t ∧ Holds t (ops.foldl mstep (fun _ => False)) := by
  suffices ∀ (t : Tree) (B : Nat → Prop), Holds t B → MOk B ops →
      ∃ t', MRun d ops t t' ∧ Holds t' (ops.foldl mstep B) from
    this .nil _ ⟨Valid.nil, by simp [toList]⟩ hok
  clear hok
  induction ops with
  | nil => intro t B h _; exact ⟨t, .nil t, h⟩
  | cons op ops ih =>
    intro t B h hok
    cases op with
    | map b s =>
      obtain ⟨h1, h2, h3, h4⟩ := hok
      obtain ⟨t1, r1, r2⟩ := C19_add_disjoint_partial d h h1 h2 h3
      obtain ⟨t', q1, q2⟩ := ih t1 _ r2 h4
      exact ⟨t', .map r1 q1, q2⟩
    | unmap b s =>
      obtain ⟨h1, h2, h3⟩ := hok
      obtain ⟨t1, f, r1, r2, _⟩ := C19_remove d h h1 h2
      obtain ⟨t', q1, q2⟩ := ih t1 _ r2 h3
      exact ⟨t', .unmap r1 q1, q2⟩

/-- C19 fails when a new mapping overlaps two tracked ones: after merging with one of them the
second insertion is refused (the `ASSERT` at drmemory/alloc_drmem.c:290 fires in a debug build) and
the whole merged range is forgotten. -/
theorem C19_merge_loses :
    ∃ t1 t2 t3, mmapAdd true 100 10 .nil = some t1 ∧ mmapAdd true 120 10 t1 = some t2 ∧
      mmapAdd true 105 20 t2 = some t3 ∧ mmapLookup 102 t3 = none ∧ mmapLookup 115 t3 = none :=
  ⟨_, _, _, rfl, rfl, rfl, rfl, rfl⟩

/-- C19 fails in release builds: a mapping over an existing one with another base is stored as an
overlapping interval, and addresses of it are then not found. -/
theorem C19_release_misses :
    ∃ t1 t2, mmapAdd false 0x20 0x10 .nil = some t1 ∧ mmapAdd false 0x10 0x100 t1 = some t2 ∧
      mmapLookup 0x50 t2 = none :=
  ⟨_, _, rfl, rfl, rfl⟩

/-- A history with an unmapping that spans two mappings. -/
example : MOk (fun _ => False) [.map 0x1000 0x1000, .map 0x2000 0x1000, .unmap 0x1800 0x1000] := by
  simp [MOk, mstep, W]; omega

end Verif.Regions
