import Verif.MappingThms
/-!
# C79: mappings, thread stacks and process names on Linux

Property theorems.  The specification is what the manual pages say: `mmap`, `munmap` and `mremap` work
on whole pages, the bytes of a new anonymous page are zero, a failed call changes nothing, the bytes
below a new thread's stack pointer are not its data yet.
-/
namespace Verif.Mapping

namespace Spec

/-- The size of a mapping: whole pages. -/
def up (n : Nat) : Nat := (n + 4095) / 4096 * 4096

/-- A byte of `[b, b+n)`. -/
def In (b n a : Nat) : Prop := b ≤ a ∧ a < b + n

/-- The calls, for memory without a file.  What the tool sees through the core is part of the event. -/
inductive Ev where
  | map (y : Sys) (b s : Nat)
  | unmap (y : Sys) (b s : Nat)
  | unmapFailed (y y' : Sys) (b s : Nat)
  | remap (y : Sys) (ob os nb ns : Nat)

/-- What the kernel has mapped after a call. -/
def kernel (K : Nat → Prop) : Ev → (Nat → Prop)
  | .map _ b s => fun a => K a ∨ In b (up s) a
  | .unmap _ b s => fun a => K a ∧ ¬ In b (up s) a
  | .unmapFailed .. => K
  | .remap _ ob os nb ns => fun a => (K a ∧ ¬ In ob (up os) a) ∨ In nb (up ns) a

/-- The calls for which the shadow follows the kernel: whole pages, new mappings over free memory,
unmapping something mapped, a failed unmapping of mapped memory only, remapping in place. -/
def Good (K : Nat → Prop) : Ev → Prop
  | .map _ b s => 0 < b ∧ b < 2 ^ 47 ∧ 0 < s ∧ s % 4096 = 0 ∧ ∀ a, In b s a → ¬ K a
  | .unmap _ b s => 0 < s ∧ s % 4096 = 0 ∧ ∃ a, In b s a ∧ K a
  | .unmapFailed _ y' b s => 0 < s ∧ (∀ a, In b s a → K a) ∧
      ∃ p, y'.query b = some p ∧ p.image = false
  | .remap y ob os nb ns => nb = ob ∧ 0 < ob ∧ ob < 2 ^ 47 ∧ 0 < os ∧ 0 < ns ∧ os % 4096 = 0 ∧
      ns % 4096 = 0 ∧ (∀ a, In ob os a → K a) ∧ (∀ a, In ob ns a → ¬ In ob os a → ¬ K a) ∧
      ∃ p, y.query ob = some p

/-- All calls of a history. -/
def GoodAll : (Nat → Prop) → List Ev → Prop
  | _, [] => True
  | K, e :: es => Good K e ∧ GoodAll (kernel K e) es

/-- The names given by the option: entries between commas; nothing after a last comma. -/
def entries (es : List (List Char)) : List (List Char) :=
  if es.getLast? = some [] then es.dropLast else es

/-- The text of the option. -/
def text : List (List Char) → List Char
  | [] => []
  | [e] => e
  | e :: es => e ++ ',' :: text es

end Spec
open Spec

/-- One call in the model, outside the heap routines. -/
def step (e : Ev) (st : St) : Option St :=
  match e with
  | .map y b s => mmap y true false s b st
  | .unmap y b s => munmap y y true b s st
  | .unmapFailed y y' b s => munmap y y' false b s st
  | .remap y ob os nb ns => mremap y ob os ns nb st

/-- A history in the model. -/
def run : List Ev → St → Option St
  | [], st => some st
  | e :: es, st => (step e st).bind (run es)

/-- The shadow says of each byte whether it is mapped, and so does the table. -/
def Follows (st : St) (K : Nat → Prop) : Prop :=
  Pos st.tab ∧ (∀ a, Cov st.tab a ↔ K a) ∧ (∀ a, st.sh a ≠ .unaddr ↔ K a)

theorem up_of {n : Nat} (h : n % 4096 = 0) : up n = n := by unfold up; omega

theorem mapOk_of {b : Nat} (h0 : 0 < b) (h : b < 2 ^ 47) : mapOk b = true := by
  unfold mapOk
  rw [decide_eq_true_iff]
  left
  have : (2 : Nat) ^ 47 < 2 ^ 63 := by decide +kernel
  omega

theorem step_follows {st : St} {K : Nat → Prop} (h : Follows st K) :
    ∀ e, Good K e → ∃ st', step e st = some st' ∧ Follows st' (kernel K e) := by
  obtain ⟨hp, ht, hs⟩ := h
  intro e he
  cases e with
  | map y b s =>
    obtain ⟨h1, h2, h3, h4, h5⟩ := he
    refine ⟨⟨setRange st.sh b (b + s) .defined, treeAdd b s st.tab⟩, ?_, ?_⟩
    · unfold step mmap
      dsimp only
      rw [if_pos (mapOk_of h1 h2)]
      rfl
    · rw [treeAdd_free h3 hp fun a q1 q2 q => h5 a ⟨q1, q2⟩ ((ht a).1 q)]
      simp only [kernel]
      rw [up_of h4]
      refine ⟨?_, fun a => ?_, fun a => ?_⟩
      · intro n hn
        rcases List.mem_cons.1 hn with rfl | hn
        · exact h3
        · exact hp n hn
      · dsimp only
        rw [cov_cons, ht a, Or.comm]
        rfl
      · dsimp only
        by_cases g : b ≤ a ∧ a < b + s
        · rw [setRange_in g]
          exact ⟨fun _ => .inr g, fun _ => by simp⟩
        · rw [setRange_out g, hs a]
          exact ⟨.inl, fun q => q.resolve_right g⟩
  | unmap y b s =>
    obtain ⟨h3, h4, a0, h5, h6⟩ := he
    have hf : (treeRemove b s st.tab).2 = true := (any_over h3 hp).2 ⟨a0, (ht a0).2 h6, h5⟩
    refine ⟨⟨setRange st.sh b (b + s) .unaddr, (treeRemove b s st.tab).1⟩, ?_, ?_⟩
    · unfold step munmap munmapPre
      dsimp only
      rw [if_pos hf]
      rfl
    · simp only [kernel]
      rw [up_of h4]
      refine ⟨remove_pos hp, fun a => ?_, fun a => ?_⟩
      · dsimp only
        rw [remove_cov, ht a]
        rfl
      · dsimp only
        by_cases g : b ≤ a ∧ a < b + s
        · rw [setRange_in g]
          exact ⟨fun q => absurd rfl q, fun q => absurd g q.2⟩
        · rw [setRange_out g, hs a]
          exact ⟨fun q => ⟨q, g⟩, fun q => q.1⟩
  | unmapFailed y y' b s =>
    obtain ⟨h3, h4, p, h5, h6⟩ := he
    have hf : (treeRemove b s st.tab).2 = true :=
      (any_over h3 hp).2 ⟨b, (ht b).2 (h4 b ⟨by omega, by omega⟩), by omega, by omega⟩
    refine ⟨⟨setRange (setRange st.sh b (b + s) .unaddr) b (b + s) .defined,
      treeAdd b s (treeRemove b s st.tab).1⟩, ?_, ?_⟩
    · unfold step munmap munmapPre
      dsimp only
      rw [if_pos hf]
      unfold munmapFail
      simp only [Option.bind_some, Bool.false_eq_true, if_false]
      rw [h5]
      dsimp only
      rw [h6]
      rfl
    · rw [treeAdd_free h3 (remove_pos hp) fun a q1 q2 q => (remove_cov.1 q).2 ⟨q1, q2⟩]
      unfold kernel
      refine ⟨?_, fun a => ?_, fun a => ?_⟩
      · intro n hn
        rcases List.mem_cons.1 hn with rfl | hn
        · exact h3
        · exact remove_pos hp n hn
      · dsimp only
        rw [cov_cons, remove_cov, ht a]
        dsimp only
        constructor
        · rintro (q | q)
          · exact h4 a q
          · exact q.1
        · intro q
          by_cases g : b ≤ a ∧ a < b + s
          · exact .inl g
          · exact .inr ⟨q, g⟩
      · dsimp only
        by_cases g : b ≤ a ∧ a < b + s
        · rw [setRange_in g]
          exact ⟨fun _ => h4 a g, fun _ => by simp⟩
        · rw [setRange_out g, setRange_out g, hs a]
  | remap y ob os nb ns =>
    obtain ⟨rfl, h1, h2, h3, h4, h5, h6, h7, h8, p, h9⟩ := he
    have hf : (treeRemove nb os st.tab).2 = true :=
      (any_over h3 hp).2 ⟨nb, (ht nb).2 (h7 nb ⟨by omega, by omega⟩), by omega, by omega⟩
    refine ⟨mremapPost p.image nb os nb ns st, ?_, ?_⟩
    · unfold step mremap
      dsimp only
      rw [if_pos (mapOk_of h1 h2), h9]
      rfl
    · have hcopy : ∀ m, copyRange st.sh nb nb m = st.sh := by
        intro m
        funext x
        unfold copyRange
        split
        · rw [show nb + (x - nb) = x by omega]
        · rfl
      simp only [kernel]
      rw [up_of h5, up_of h6]
      have hfree : ∀ a, nb ≤ a → a < nb + ns → ¬ Cov (treeRemove nb os st.tab).1 a := by
        intro a q1 q2 q
        obtain ⟨q3, q4⟩ := remove_cov.1 q
        exact h8 a ⟨q1, q2⟩ (fun g => q4 g) ((ht a).1 q3)
      have htab : (mremapPost p.image nb os nb ns st).tab =
          (nb, ns) :: (treeRemove nb os st.tab).1 := by
        unfold mremapPost
        dsimp only
        rw [if_pos hf, treeAdd_free h4 (remove_pos hp) hfree]
      refine ⟨?_, fun a => ?_, fun a => ?_⟩
      · rw [htab]
        intro n hn
        rcases List.mem_cons.1 hn with rfl | hn
        · exact h4
        · exact remove_pos hp n hn
      · rw [htab, cov_cons, remove_cov, ht a, Or.comm]
        rfl
      · unfold mremapPost
        dsimp only
        rw [hcopy]
        by_cases hlt : ns < os
        · rw [if_pos (by simpa using hlt)]
          by_cases g : nb + ns ≤ a ∧ a < nb + os
          · rw [setRange_in g]
            constructor
            · intro q; exact absurd rfl q
            · rintro (q | q)
              · exact absurd ⟨by omega, g.2⟩ q.2
              · exact absurd q.2 (by omega)
          · rw [setRange_out g, hs a]
            constructor
            · intro q
              by_cases g2 : nb ≤ a ∧ a < nb + ns
              · exact .inr g2
              · exact .inl ⟨q, fun g3 => by unfold In at g3; omega⟩
            · rintro (q | q)
              · exact q.1
              · exact h7 a ⟨q.1, by have := q.2; omega⟩
        · rw [if_neg (by simpa using hlt)]
          by_cases g : nb + os ≤ a ∧ a < nb + ns
          · rw [setRange_in g]
            exact ⟨fun _ => .inr ⟨by omega, g.2⟩, fun _ => by split <;> simp⟩
          · rw [setRange_out g, hs a]
            constructor
            · intro q
              by_cases g2 : nb ≤ a ∧ a < nb + ns
              · exact .inr g2
              · exact .inl ⟨q, fun g3 => by unfold In at g3; omega⟩
            · rintro (q | q)
              · exact q.1
              · exact h7 a ⟨q.1, by have := q.2; omega⟩

/-- C79: after every history of calls, the shadow marks a byte addressable iff the kernel has it
mapped, and the table holds the same bytes.  Missing from the full statement: the histories ruled out
by `Spec.Good`, for which it is false (`C79_tail`, `C79_unmap_tail`, `C79_moved`, `C79_fail_defines`,
`C79_zero`, `C79_unmap_free`), and mappings of files (`C79_file_partial`). -/
theorem C79_history_partial (es : List Ev) {st : St} {K : Nat → Prop} (h : Follows st K)
    (hg : GoodAll K es) : ∃ st', run es st = some st' ∧ Follows st' (es.foldl kernel K) := by
  induction es generalizing st K with
  | nil => exact ⟨st, rfl, h⟩
  | cons e es ih =>
    obtain ⟨st1, h1, h2⟩ := step_follows h e hg.1
    obtain ⟨st2, h3, h4⟩ := ih h2 hg.2
    exact ⟨st2, by rw [run, h1]; exact h3, h4⟩

/-- Nothing mapped. -/
def empty : St := ⟨fun _ => .unaddr, []⟩

/-- The core says: one accessible range, not an image. -/
def plain (b s : Nat) : Sys := ⟨fun _ => some ⟨b, s, false, false⟩, fun _ => none⟩

/-- A history meeting the conditions: map two pages, fail to unmap them, grow to three, unmap the
middle one. -/
example : Follows empty (fun _ => False) ∧
    GoodAll (fun _ => False) [.map (plain 0 0) 8192 8192,
      .unmapFailed (plain 8192 8192) (plain 8192 8192) 8192 8192,
      .remap (plain 8192 12288) 8192 8192 8192 12288, .unmap (plain 8192 12288) 12288 4096] := by
  refine ⟨⟨?_, ?_, ?_⟩, ⟨by decide, by decide, by decide, by decide, ?_⟩,
    ⟨by decide, ?_, ⟨_, rfl, rfl⟩⟩,
    ⟨rfl, by decide, by decide, by decide, by decide, by decide, by decide, ?_, ?_, ⟨_, rfl⟩⟩,
    ⟨by decide, by decide, 12288, ⟨by decide, by decide⟩, ?_⟩, trivial⟩
  · intro n hn; cases hn
  · intro a; constructor
    · rintro ⟨n, hn, _⟩; cases hn
    · exact False.elim
  · intro a; simp [empty]
  · intro a _ q; exact q
  · intro a q; exact .inr q
  · intro a q; exact .inr q
  · rintro a _ q2 (q | q)
    · exact q
    · exact q2 q
  · exact .inr ⟨by decide, by decide⟩

/-- C79: a new anonymous mapping of whole pages is defined (the kernel fills it with zeroes) and no
other byte changes.  Missing: sizes that are not whole pages (`C79_tail`). -/
theorem C79_mmap_partial {y : Sys} {b s : Nat} (hs : s % 4096 = 0) (hr : mapOk b = true) (st : St) :
    ∃ st', mmap y true false s b st = some st' ∧
      (∀ a, In b (up s) a → st'.sh a = .defined) ∧ (∀ a, ¬ In b (up s) a → st'.sh a = st.sh a) := by
  refine ⟨⟨setRange st.sh b (b + s) .defined, treeAdd b s st.tab⟩, ?_, ?_, ?_⟩
  · unfold mmap; rw [if_pos hr]; rfl
  · intro a ha; rw [up_of hs] at ha; exact setRange_in ha
  · intro a ha; rw [up_of hs] at ha; exact setRange_out ha

example : mapOk 0x7f0000000000 = true ∧ 8192 % 4096 = 0 := by decide +kernel

/-- C79, against the code: the rest of the last page of a mapping keeps the state it had; if that was
unaddressable, every access there is reported though the kernel has mapped it. -/
theorem C79_tail {y : Sys} {b s a : Nat} (hr : mapOk b = true) (_ha : In b (up s) a)
    (hb : b + s ≤ a) (st : St) :
    ∃ st', mmap y true false s b st = some st' ∧ st'.sh a = st.sh a := by
  refine ⟨⟨setRange st.sh b (b + s) .defined, treeAdd b s st.tab⟩, ?_, ?_⟩
  · unfold mmap; rw [if_pos hr]; rfl
  · exact setRange_out (by omega)

example : In 0x10000 (up 5000) (0x10000 + 8191) ∧ 0x10000 + 5000 ≤ 0x10000 + 8191 := by
  unfold In up; decide

/-- C79: a mapping made by the allocator leaves the shadow as it was: the blocks it hands out are
marked when it does so.  It is in the table all the same. -/
theorem C79_mmap_heap {y : Sys} {b s : Nat} (hr : mapOk b = true) (st : St) :
    mmap y true true s b st = some ⟨st.sh, treeAdd b s st.tab⟩ := by
  unfold mmap; rw [if_pos hr]; rfl

/-- C79: a mapping placed over a part of one tracked mapping (`MAP_FIXED`), or adjoining others only:
the table then holds the bytes it held and those of the new one.  (For one that overlaps several, see
`C19_merge_loses`.) -/
theorem C79_over_one {y : Sys} {b s : Nat} {inHeap : Bool} (hr : mapOk b = true) {st : St}
    {l1 l2 : List Node} {n : Node} (ht : st.tab = l1 ++ n :: l2) (hs : 0 < s) (hn : 0 < n.2)
    (ho : b < n.1 + n.2 ∧ n.1 < b + s)
    (hx : ∀ m ∈ l1 ++ l2, m.1 + m.2 ≤ min b n.1 ∨ max (b + s) (n.1 + n.2) ≤ m.1) :
    ∃ st', mmap y true inHeap s b st = some st' ∧
      ∀ a, Cov st'.tab a ↔ Cov st.tab a ∨ In b s a := by
  refine ⟨⟨if inHeap then st.sh else setRange st.sh b (b + s) .defined, treeAdd b s st.tab⟩, ?_, ?_⟩
  · unfold mmap; rw [if_pos hr]; rfl
  · have hno : ∀ m ∈ l1 ++ l2, over b s m = false := by
      intro m hm
      have := hx m hm
      unfold over
      rw [decide_eq_false_iff_not]
      omega
    have hon : over b s n = true := by unfold over; rw [decide_eq_true_iff]; exact ho
    have hf : st.tab.find? (over b s) = some n := by
      rw [ht, List.find?_append, List.find?_eq_none.2 fun m hm => by
        rw [hno m (List.mem_append_left _ hm)]; simp]
      rw [List.find?_cons, hon]
      rfl
    have hn1 : n ∉ l1 := fun q => by
      have := hno n (List.mem_append_left _ q)
      rw [hon] at this
      cases this
    have he : st.tab.erase n = l1 ++ l2 := by
      rw [ht, List.erase_append_right _ hn1, List.erase_cons_head]
    have hadd : treeAdd b s st.tab =
        (min b n.1, max (b + s) (n.1 + n.2) - min b n.1) :: (l1 ++ l2) := by
      unfold treeAdd
      rw [hf]
      dsimp only
      rw [he, if_neg]
      rw [Bool.not_eq_true, List.any_eq_false]
      intro m hm
      have := hx m hm
      unfold over
      rw [decide_eq_true_iff]
      omega
    intro a
    dsimp only
    rw [hadd, cov_cons, ht]
    dsimp only
    have hc : Cov (l1 ++ n :: l2) a ↔ (n.1 ≤ a ∧ a < n.1 + n.2) ∨ Cov (l1 ++ l2) a := by
      unfold Cov
      simp only [List.mem_append, List.mem_cons]
      constructor
      · rintro ⟨m, h1 | rfl | h1, h2⟩
        · exact .inr ⟨m, .inl h1, h2⟩
        · exact .inl h2
        · exact .inr ⟨m, .inr h1, h2⟩
      · rintro (h | ⟨m, h1 | h1, h2⟩)
        · exact ⟨n, .inr (.inl rfl), h⟩
        · exact ⟨m, .inl h1, h2⟩
        · exact ⟨m, .inr (.inr h1), h2⟩
    rw [hc]
    unfold In
    constructor
    · rintro (h | h)
      · by_cases g : n.1 ≤ a ∧ a < n.1 + n.2
        · exact .inl (.inl g)
        · exact .inr (by omega)
      · exact .inl (.inr h)
    · rintro ((h | h) | h)
      · exact .inl (by omega)
      · exact .inr h
      · exact .inl (by omega)

example : ∃ st', mmap (plain 0 0) true false 0x2000 0x11000
    ⟨fun _ => .unaddr, [(0x30000, 0x1000), (0x10000, 0x2000)]⟩ = some st' ∧
    st'.tab = [(0x10000, 0x3000), (0x30000, 0x1000)] := ⟨_, rfl, by decide +kernel⟩

/-- C79: a failed `mmap` or `mremap` (a result of `-4096` to `-1`, or zero) changes nothing. -/
theorem C79_failed {y : Sys} {r : Nat} (h : r = 0 ∨ (2 ^ 64 - 4096 ≤ r ∧ r < 2 ^ 64))
    (anon inHeap : Bool) (s ob os ns : Nat) (st : St) :
    mmap y anon inHeap s r st = some st ∧ mremap y ob os ns r st = some st := by
  have hm : mapOk r = false := by
    unfold mapOk pg
    rw [decide_eq_false_iff_not]
    have : (2 : Nat) ^ 63 < 2 ^ 64 - 4096 := by decide +kernel
    omega
  unfold mmap mremap
  rw [hm]
  exact ⟨rfl, rfl⟩

/-- C79: every other result is taken as the address of the mapping. -/
theorem C79_succeeded {r : Nat} (h : 0 < r ∧ r < 2 ^ 64 - 4096) : mapOk r = true := by
  unfold mapOk pg
  rw [decide_eq_true_iff]
  omega

/-! ## Unmapping -/

/-- C79: unmapping whole pages of which some byte is in the table makes exactly them unaddressable and
takes exactly them out of the table.  Missing: other sizes (`C79_unmap_tail`), ranges outside the table
(`C79_unmap_file`, `C79_unmap_free`). -/
theorem C79_munmap_partial {y y' : Sys} {b s : Nat} (hs : 0 < s) (hpg : s % 4096 = 0) {st : St}
    (hp : Pos st.tab) (hc : ∃ a, In b s a ∧ Cov st.tab a) :
    ∃ st', munmap y y' true b s st = some st' ∧
      (∀ a, In b (up s) a → st'.sh a = .unaddr) ∧ (∀ a, ¬ In b (up s) a → st'.sh a = st.sh a) ∧
      (∀ a, Cov st'.tab a ↔ Cov st.tab a ∧ ¬ In b (up s) a) := by
  obtain ⟨a0, h1, h2⟩ := hc
  have hf : (treeRemove b s st.tab).2 = true := (any_over hs hp).2 ⟨a0, h2, h1⟩
  rw [up_of hpg]
  refine ⟨⟨setRange st.sh b (b + s) .unaddr, (treeRemove b s st.tab).1⟩, ?_, ?_, ?_, ?_⟩
  · unfold munmap munmapPre
    dsimp only
    rw [if_pos hf]
    rfl
  · intro a ha; exact setRange_in ha
  · intro a ha; exact setRange_out ha
  · intro a; exact remove_cov

/-- C79, against the code: the rest of the last page of an unmapped range stays as it was. -/
theorem C79_unmap_tail {y y' : Sys} {b s a : Nat} (hs : 0 < s) {st : St}
    (hp : Pos st.tab) (hc : ∃ a, In b s a ∧ Cov st.tab a) (_ha : In b (up s) a) (hb : b + s ≤ a) :
    ∃ st', munmap y y' true b s st = some st' ∧ st'.sh a = st.sh a := by
  obtain ⟨a0, h1, h2⟩ := hc
  have hf : (treeRemove b s st.tab).2 = true := (any_over hs hp).2 ⟨a0, h2, h1⟩
  refine ⟨⟨setRange st.sh b (b + s) .unaddr, (treeRemove b s st.tab).1⟩, ?_, ?_⟩
  · unfold munmap munmapPre
    dsimp only
    rw [if_pos hf]
    rfl
  · exact setRange_out (by omega)

example : Pos [(0x10000, 8192)] ∧ (∃ a, In 0x10000 5000 a ∧ Cov [(0x10000, 8192)] a) ∧
    In 0x10000 (up 5000) (0x10000 + 8191) := by
  refine ⟨?_, ⟨0x10000, ⟨by decide, by decide⟩, _, List.mem_cons_self, by decide, by decide⟩, ?_⟩
  · intro n hn
    rw [List.mem_singleton] at hn
    subst hn
    decide
  · unfold In up; decide

/-- C79, against the code: a failed `munmap` of memory of which some byte is in the table marks every
byte of the range defined, whatever it was: uninitialised, freed, or never mapped.  (It fails for an
address inside a page.) -/
theorem C79_fail_defines {y y' : Sys} {b s : Nat} (hs : 0 < s) {st : St}
    (hp : Pos st.tab) (hc : ∃ a, In b s a ∧ Cov st.tab a) {p : Piece} (hq : y'.query b = some p)
    (hi : p.image = false) :
    ∃ st', munmap y y' false b s st = some st' ∧
      (∀ a, In b s a → st'.sh a = .defined) ∧ (∀ a, ¬ In b s a → st'.sh a = st.sh a) := by
  obtain ⟨a0, h1, h2⟩ := hc
  have hf : (treeRemove b s st.tab).2 = true := (any_over hs hp).2 ⟨a0, h2, h1⟩
  refine ⟨⟨setRange (setRange st.sh b (b + s) .unaddr) b (b + s) .defined,
    treeAdd b s (treeRemove b s st.tab).1⟩, ?_, ?_, ?_⟩
  · unfold munmap munmapPre
    dsimp only
    rw [if_pos hf]
    unfold munmapFail
    simp only [Option.bind_some, Bool.false_eq_true, if_false]
    rw [hq]
    dsimp only
    rw [hi]
    rfl
  · intro a ha; exact setRange_in ha
  · intro a ha
    dsimp only
    rw [setRange_out (fun g => ha g), setRange_out (fun g => ha g)]

/-- A page mapped at 0x10000 and an attempt to unmap a page from 0x10001: the first byte beyond the
mapping becomes defined. -/
example : ∃ st', munmap (plain 0x10000 4096) (plain 0x10000 4096) false 0x10001 4096
    ⟨setRange (fun _ => .unaddr) 0x10000 0x11000 .undef, [(0x10000, 4096)]⟩ = some st' ∧
    st'.sh 0x11000 = .defined ∧ st'.sh 0x10800 = .defined :=
  ⟨_, rfl, by decide +kernel, by decide +kernel⟩

/-- C79, against the code: `munmap(b, 0)`, which fails and does nothing, makes the whole mapping from
`b` on unaddressable for good, unless `b` lies inside a range of the table.  `p` is what the core
answers for `b`, at least a page from there. -/
theorem C79_zero {y : Sys} {b : Nat} {st : St} (ht : ∀ n ∈ st.tab, ¬ (n.1 < b ∧ b < n.1 + n.2))
    {p : Piece} (hq : y.query b = some p) (hm : y.modEnd b = none) (hn : p.noprot = false)
    (hi : p.image = false) (he : b + 4096 ≤ p.base + p.size) :
    ∃ st', munmap y y false b 0 st = some st' ∧
      (∀ a, b ≤ a → a < p.base + p.size → st'.sh a = .unaddr) := by
  have hf : (treeRemove b 0 st.tab).2 = false := by
    unfold treeRemove
    dsimp only
    rw [List.any_eq_false]
    intro n hn
    unfold over
    have := ht n hn
    simp only [decide_eq_true_eq]
    omega
  have hstop : walkStop y b = b + 4096 := by unfold walkStop; rw [hm]; rfl
  refine ⟨⟨setRange (setRange st.sh b (p.base + p.size) .unaddr) b (b + 0) .defined,
    treeAdd b 0 (treeRemove b 0 st.tab).1⟩, ?_, ?_⟩
  · unfold munmap munmapPre
    dsimp only
    rw [if_neg (by rw [hf]; simp), walk_once hq (by omega) (by omega), hn]
    unfold munmapFail
    simp only [Bool.false_eq_true, if_false, Option.map_some, Option.bind_some]
    rw [hq]
    dsimp only
    rw [hi]
    rfl
  · intro a h1 h2
    dsimp only
    rw [setRange_out (by omega), setRange_in ⟨h1, h2⟩]

example : ∃ st', munmap (plain 0x10000 8192) (plain 0x10000 8192) false 0x10000 0
    ⟨setRange (fun _ => .unaddr) 0x10000 0x12000 .defined, [(0x10000, 8192)]⟩ = some st' ∧
    st'.sh 0x11fff = .unaddr :=
  ⟨_, rfl, by decide +kernel⟩

/-- C79, against the code: unmapping a part of a mapped file makes all of the file's range from there
on unaddressable, also what stays mapped. -/
theorem C79_unmap_file {y y' : Sys} {b s : Nat} (hs : 0 < s) {st : St}
    (ht : ∀ n ∈ st.tab, over b s n = false) {p : Piece} (hq : y.query b = some p)
    (hm : y.modEnd b = none) (hn : p.noprot = false) (he : b + s ≤ p.base + p.size) :
    ∃ st', munmap y y' true b s st = some st' ∧
      ∀ a, st'.sh a = if b ≤ a ∧ a < p.base + p.size then .unaddr else st.sh a := by
  have hf : (treeRemove b s st.tab).2 = false := by
    unfold treeRemove
    dsimp only
    rw [List.any_eq_false]
    intro n hn
    rw [ht n hn]
    simp
  have hstop : walkStop y b = b + 4096 := by unfold walkStop; rw [hm]; rfl
  refine ⟨⟨setRange st.sh b (p.base + p.size) .unaddr, (treeRemove b s st.tab).1⟩, ?_, ?_⟩
  · unfold munmap munmapPre
    dsimp only
    rw [if_neg (by rw [hf]; simp), walk_once hq (by omega) (.inr ⟨hs, he⟩), hn]
    rfl
  · intro a; rfl

/-- One page of a mapping of four: the last is marked too. -/
example : ∃ st', munmap (plain 0x10000 0x4000) (plain 0x10000 0x4000) true 0x11000 0x1000
    ⟨setRange (fun _ => .unaddr) 0x10000 0x14000 .defined, []⟩ = some st' ∧
    st'.sh 0x13fff = .unaddr ∧ st'.sh 0x10fff = .defined :=
  ⟨_, rfl, by decide +kernel, by decide +kernel⟩

/-- C79, against the code: unmapping free or inaccessible memory from the middle of its range on, which
the kernel allows, makes as many bytes beyond that range unaddressable as precede the address. -/
theorem C79_unmap_free {y y' : Sys} {b s : Nat} (hs : 0 < s) {st : St}
    (ht : ∀ n ∈ st.tab, over b s n = false) {p : Piece} (hq : y.query b = some p)
    (hm : y.modEnd b = none) (hn : p.noprot = true) (he : b + s ≤ p.base + p.size) :
    ∃ st', munmap y y' true b s st = some st' ∧
      ∀ a, st'.sh a = if b ≤ a ∧ a < b + p.size then .unaddr else st.sh a := by
  have hf : (treeRemove b s st.tab).2 = false := by
    unfold treeRemove
    dsimp only
    rw [List.any_eq_false]
    intro n hn
    rw [ht n hn]
    simp
  have hstop : walkStop y b = b + 4096 := by unfold walkStop; rw [hm]; rfl
  refine ⟨⟨setRange st.sh b (b + p.size) .unaddr, (treeRemove b s st.tab).1⟩, ?_, ?_⟩
  · unfold munmap munmapPre
    dsimp only
    rw [if_neg (by rw [hf]; simp), walk_once hq (by omega) (.inr ⟨hs, he⟩), hn]
    rfl
  · intro a; rfl

/-- Free memory from 0x10000 to 0x14000 with a mapping behind it; unmapping the page at 0x12000 makes
the two pages from 0x14000 on unaddressable. -/
example : ∃ st', munmap ⟨fun _ => some ⟨0x10000, 0x4000, true, false⟩, fun _ => none⟩
    (plain 0 0) true 0x12000 0x1000
    ⟨setRange (fun _ => .unaddr) 0x14000 0x18000 .defined, [(0x14000, 0x4000)]⟩ = some st' ∧
    st'.sh 0x14000 = .unaddr ∧ st'.sh 0x15fff = .unaddr ∧ st'.sh 0x16000 = .defined :=
  ⟨_, rfl, by decide +kernel, by decide +kernel, by decide +kernel⟩

/-! ## Files and modules -/

/-- C79: mapping a file, or a module, of any number of ranges with any protections: the walk ends, what
it passes is defined where it may be accessed and unchanged elsewhere; it passes everything up to the
end of the module (or one page) or of the size, unless a query fails, and stops at the end of the range
in which that lies. -/
theorem C79_walk {y : Sys} (hq : QOk y.query) (b s : Nat) (sh : Shadow) :
    ∃ sh' e, walk y b s true sh = some sh' ∧ b ≤ e ∧
      (∀ a, sh' a = if (b ≤ a ∧ a < e) ∧ acc y a = true then .defined else sh a) ∧
      ((y.modEnd b).getD (b + 4096) ≤ e ∨ (0 < s ∧ b + s ≤ e) ∨ y.query e = none) ∧
      (e = b ∨ ∃ x p, b ≤ x ∧ x < (y.modEnd b).getD (b + 4096) ∧ (0 < s → x < b + s) ∧
        y.query x = some p ∧ e = p.base + p.size) := by
  obtain ⟨sh', e, h1, h2, h3, h4, h5⟩ := walkLoop_add hq (walkStop y b)
    (if s = 0 then none else some (b + s)) (walkStop y b - b + 1) b sh (by omega)
  refine ⟨sh', e, by unfold walk; rw [h1]; rfl, h2, h3, ?_, ?_⟩
  · rcases h4 with h4 | ⟨l, h4, h6⟩ | h4
    · exact .inl h4
    · refine .inr (.inl ?_)
      by_cases h0 : s = 0
      · rw [if_pos h0] at h4; cases h4
      · rw [if_neg h0] at h4; cases h4; exact ⟨by omega, h6⟩
    · exact .inr (.inr h4)
  · rcases h5 with h5 | ⟨x, p, g1, g2, g3, g4⟩
    · exact .inl h5
    · refine .inr ⟨x, p, g1, g2, fun hs => g3 _ ?_, g4⟩
      rw [if_neg (by omega)]
      rfl

/-- C79: the same for unmapping, if the ranges adjoin and the walk does not begin inside one that may
not be accessed (see `C79_unmap_free`). -/
theorem C79_walk_remove_partial {y : Sys} (hq : QOk y.query) (b s : Nat) (sh : Shadow)
    (hst : ∀ p, y.query b = some p → p.noprot = true → p.base = b) :
    ∃ sh' e, walk y b s false sh = some sh' ∧ b ≤ e ∧
      (∀ a, sh' a = if b ≤ a ∧ a < e then .unaddr else sh a) ∧
      ((y.modEnd b).getD (b + 4096) ≤ e ∨ (0 < s ∧ b + s ≤ e) ∨ y.query e = none) ∧
      (e = b ∨ ∃ x p, b ≤ x ∧ x < (y.modEnd b).getD (b + 4096) ∧ (0 < s → x < b + s) ∧
        y.query x = some p ∧ e = p.base + p.size) := by
  have hadj : ∀ x p, y.query x = some p → ∀ p', y.query (p.base + p.size) = some p' →
      p'.base = p.base + p.size := by
    intro x p hx p' hp'
    obtain ⟨a1, a2, a3⟩ := hq _ _ hx
    obtain ⟨b1, b2, b3⟩ := hq _ _ hp'
    rcases Nat.lt_or_ge p'.base (p.base + p.size) with hlt | hge
    · exfalso
      have e1 := b3 (max p.base p'.base) (by omega) (by omega)
      have e2 := a3 (max p.base p'.base) (by omega) (by omega)
      rw [e1] at e2
      cases e2
      omega
    · omega
  obtain ⟨sh', e, h1, h2, h3, h4, h5⟩ := walkLoop_remove hq (walkStop y b)
    (if s = 0 then none else some (b + s)) (walkStop y b - b + 1) b sh (by omega) hst hadj
  refine ⟨sh', e, by unfold walk; rw [h1]; rfl, h2, h3, ?_, ?_⟩
  · rcases h4 with h4 | ⟨l, h4, h6⟩ | h4
    · exact .inl h4
    · refine .inr (.inl ?_)
      by_cases h0 : s = 0
      · rw [if_pos h0] at h4; cases h4
      · rw [if_neg h0] at h4; cases h4; exact ⟨by omega, h6⟩
    · exact .inr (.inr h4)
  · rcases h5 with h5 | ⟨x, p, g1, g2, g3, g4⟩
    · exact .inl h5
    · refine .inr ⟨x, p, g1, g2, fun hs => g3 _ ?_, g4⟩
      rw [if_neg (by omega)]
      rfl

/-- A module of three ranges, the middle one a hole. -/
def threeParts : Sys :=
  { query := fun a =>
      if a < 0x10000 then none
      else if a < 0x12000 then some ⟨0x10000, 0x2000, false, true⟩
      else if a < 0x13000 then some ⟨0x12000, 0x1000, true, true⟩
      else if a < 0x15000 then some ⟨0x13000, 0x2000, false, true⟩
      else none
    modEnd := fun _ => some 0x15000 }

example : QOk threeParts.query ∧
    (walk threeParts 0x10000 0x5000 true (fun _ => .unaddr)).map (fun sh =>
      [0x11fff, 0x12000, 0x14fff, 0x15000].map sh) = some [.defined, .unaddr, .defined, .unaddr] := by
  refine ⟨?_, by decide +kernel⟩
  intro pc p h
  unfold threeParts at h ⊢
  dsimp only at h ⊢
  split at h
  · cases h
  · split at h
    · cases h
      refine ⟨by dsimp only; omega, by dsimp only; omega, fun a h1 h2 => ?_⟩
      dsimp only at h1 h2
      rw [if_neg (by omega), if_pos (by omega)]
    · split at h
      · cases h
        refine ⟨by dsimp only; omega, by dsimp only; omega, fun a h1 h2 => ?_⟩
        dsimp only at h1 h2
        rw [if_neg (by omega), if_neg (by omega), if_pos (by omega)]
      · split at h
        · cases h
          refine ⟨by dsimp only; omega, by dsimp only; omega, fun a h1 h2 => ?_⟩
          dsimp only at h1 h2
          rw [if_neg (by omega), if_neg (by omega), if_neg (by omega), if_pos (by omega)]
        · cases h

/-- C79: a failed `munmap` of an image of one accessible range: the range from the address on is
defined again, whatever it was, and nothing else changes. -/
theorem C79_fail_image {y : Sys} {b s : Nat} (hs : 0 < s) {st : St}
    (ht : ∀ n ∈ st.tab, over b s n = false) {p : Piece} (hq : y.query b = some p)
    (hm : b < (y.modEnd b).getD (b + 4096)) (hn : p.noprot = false) (hi : p.image = true)
    (he : b + s ≤ p.base + p.size) :
    ∃ st', munmap y y false b s st = some st' ∧
      ∀ a, st'.sh a = if b ≤ a ∧ a < p.base + p.size then .defined else st.sh a := by
  have hf : (treeRemove b s st.tab).2 = false := by
    unfold treeRemove
    dsimp only
    rw [List.any_eq_false]
    intro n hn
    rw [ht n hn]
    simp
  refine ⟨⟨setRange (setRange st.sh b (p.base + p.size) .unaddr) b (p.base + p.size) .defined,
    (treeRemove b s st.tab).1⟩, ?_, ?_⟩
  · unfold munmap munmapPre
    dsimp only
    rw [if_neg (by rw [hf]; simp), walk_once hq hm (.inr ⟨hs, he⟩), hn]
    unfold munmapFail
    simp only [Bool.false_eq_true, if_false, Option.map_some, Option.bind_some]
    rw [hq]
    dsimp only
    rw [hi, if_pos rfl, walk_once hq hm (.inr ⟨hs, he⟩), hn]
    rfl
  · intro a
    dsimp only
    by_cases g : b ≤ a ∧ a < p.base + p.size
    · rw [setRange_in g, if_pos g]
    · rw [setRange_out g, setRange_out g, if_neg g]

example : ∃ p, threeParts.query 0x10000 = some p ∧ p.image = true ∧ p.noprot = false ∧
    0x10000 < (threeParts.modEnd 0x10000).getD (0x10000 + 4096) := ⟨_, rfl, rfl, rfl, by decide⟩

/-- C79: mapping a file that is not a module, for which the core answers with one accessible range that
ends with the mapping: exactly its bytes are defined.  Missing: neighbours the kernel has merged with
it (`C79_file_merged`). -/
theorem C79_file_partial {y : Sys} {b s : Nat} (hs : 0 < s) {p : Piece} (hr : mapOk b = true)
    (hq : y.query b = some p) (hm : y.modEnd b = none) (hn : p.noprot = false)
    (he : p.base + p.size = b + up s) (inHeap : Bool) (st : St) :
    ∃ st', mmap y false inHeap s b st = some st' ∧
      (∀ a, st'.sh a = if b ≤ a ∧ a < b + up s then .defined else st.sh a) ∧ st'.tab = st.tab := by
  have hstop : walkStop y b = b + 4096 := by unfold walkStop; rw [hm]; rfl
  have hup : s ≤ up s := by unfold up; omega
  refine ⟨⟨setRange st.sh b (p.base + p.size) .defined, st.tab⟩, ?_, ?_, rfl⟩
  · unfold mmap mmapPost
    rw [if_pos hr, if_neg (by simp), walk_once hq (by omega) (.inr ⟨hs, by omega⟩), hn]
    rfl
  · intro a; rw [← he]; rfl

example : (plain 0x10000 0x2000).query 0x10000 = some ⟨0x10000, 0x2000, false, false⟩ ∧
    0x10000 + 0x2000 = 0x10000 + up 5000 := ⟨rfl, by unfold up; decide⟩

/-- C79, against the code: a file mapped just below other memory with the same protection, for which
the core answers with one range, makes all of that memory defined. -/
theorem C79_file_merged {y : Sys} {b s : Nat} (hs : 0 < s) {p : Piece} (hr : mapOk b = true)
    (hq : y.query b = some p) (hm : y.modEnd b = none) (hn : p.noprot = false)
    (he : b + s ≤ p.base + p.size) (inHeap : Bool) (st : St) :
    ∃ st', mmap y false inHeap s b st = some st' ∧
      ∀ a, b ≤ a → a < p.base + p.size → st'.sh a = .defined := by
  have hstop : walkStop y b = b + 4096 := by unfold walkStop; rw [hm]; rfl
  refine ⟨⟨setRange st.sh b (p.base + p.size) .defined, st.tab⟩, ?_, ?_⟩
  · unfold mmap mmapPost
    rw [if_pos hr, if_neg (by simp), walk_once hq (by omega) (.inr ⟨hs, he⟩), hn]
    rfl
  · intro a h1 h2; exact setRange_in ⟨h1, h2⟩

/-! ## Remapping -/

/-- C79: after `mremap` each byte that was in the mapping has, at its new place, the state it had.  For
a move (the ranges share no byte) and in place. -/
theorem C79_remap_kept {y : Sys} {ob os nb ns : Nat} {p : Piece} (hr : mapOk nb = true)
    (hq : y.query nb = some p) (hd : nb = ob ∨ ob + os ≤ nb ∨ nb + ns ≤ ob) (st : St) :
    ∃ st', mremap y ob os ns nb st = some st' ∧
      ∀ i, i < os → i < ns → st'.sh (nb + i) = st.sh (ob + i) := by
  refine ⟨mremapPost p.image ob os nb ns st, ?_, ?_⟩
  · unfold mremap; rw [if_pos hr, hq]; rfl
  · intro i h1 h2
    unfold mremapPost
    dsimp only
    by_cases hlt : ns < os
    · rw [if_pos (by simpa using hlt), setRange_out (by omega), if_pos (by simpa using hlt)]
      unfold copyRange
      rw [if_pos (by omega), show nb + i - nb = i by omega]
    · rw [if_neg (by simpa using hlt), setRange_out (by omega), if_neg (by simpa using hlt)]
      unfold copyRange
      rw [if_pos (by omega), show nb + i - nb = i by omega]

/-- C79: a mapping that shrinks loses its end. -/
theorem C79_remap_shrunk {y : Sys} {ob os nb ns : Nat} {p : Piece} (hr : mapOk nb = true)
    (hq : y.query nb = some p) (hlt : ns < os) (st : St) :
    ∃ st', mremap y ob os ns nb st = some st' ∧
      ∀ a, ob + ns ≤ a → a < ob + os → st'.sh a = .unaddr := by
  refine ⟨mremapPost p.image ob os nb ns st, ?_, ?_⟩
  · unfold mremap; rw [if_pos hr, hq]; rfl
  · intro a h1 h2
    unfold mremapPost
    dsimp only
    rw [if_pos (by simpa using hlt), setRange_in ⟨h1, h2⟩]

/-- C79, against the code: when a mapping moves, what is kept of its old place stays as it was, so
accesses through old pointers are not reported. -/
theorem C79_moved {y : Sys} {ob os nb ns a : Nat} {p : Piece} (hr : mapOk nb = true)
    (hq : y.query nb = some p) (hd : ob + os ≤ nb ∨ nb + max os ns ≤ ob) (h1 : In ob os a)
    (h2 : a < ob + ns) (st : St) :
    ∃ st', mremap y ob os ns nb st = some st' ∧ st'.sh a = st.sh a := by
  refine ⟨mremapPost p.image ob os nb ns st, ?_, ?_⟩
  · unfold mremap; rw [if_pos hr, hq]; rfl
  · unfold In at h1
    unfold mremapPost
    dsimp only
    by_cases hlt : ns < os
    · rw [if_pos (by simpa using hlt), setRange_out (by omega), if_pos (by simpa using hlt)]
      unfold copyRange
      rw [if_neg (by omega)]
    · rw [if_neg (by simpa using hlt), setRange_out (by omega), if_neg (by simpa using hlt)]
      unfold copyRange
      rw [if_neg (by omega)]

/-- C79, against the code: the bytes a mapping grows by are undefined unless it is an image, though the
kernel fills them with zeroes or from the file. -/
theorem C79_grown {y : Sys} {ob os nb ns a : Nat} {p : Piece} (hr : mapOk nb = true)
    (hq : y.query nb = some p) (hi : p.image = false) (h1 : nb + os ≤ a) (h2 : a < nb + ns)
    (st : St) :
    ∃ st', mremap y ob os ns nb st = some st' ∧ st'.sh a = .undef := by
  refine ⟨mremapPost p.image ob os nb ns st, ?_, ?_⟩
  · unfold mremap; rw [if_pos hr, hq]; rfl
  · unfold mremapPost
    dsimp only
    rw [if_neg (by simp; omega), setRange_in ⟨h1, h2⟩, hi]
    rfl

/-- C79: the bytes an image grows by are defined. -/
theorem C79_grown_image {y : Sys} {ob os nb ns a : Nat} {p : Piece} (hr : mapOk nb = true)
    (hq : y.query nb = some p) (hi : p.image = true) (h1 : nb + os ≤ a) (h2 : a < nb + ns)
    (st : St) :
    ∃ st', mremap y ob os ns nb st = some st' ∧ st'.sh a = .defined := by
  refine ⟨mremapPost p.image ob os nb ns st, ?_, ?_⟩
  · unfold mremap; rw [if_pos hr, hq]; rfl
  · unfold mremapPost
    dsimp only
    rw [if_neg (by simp; omega), setRange_in ⟨h1, h2⟩, hi]
    rfl

/-- C79: no byte outside the old and the new place changes. -/
theorem C79_remap_else {y : Sys} {ob os nb ns a : Nat} {p : Piece} (hr : mapOk nb = true)
    (hq : y.query nb = some p) (h1 : ¬ In ob os a) (h2 : ¬ In nb ns a) (st : St) :
    ∃ st', mremap y ob os ns nb st = some st' ∧ st'.sh a = st.sh a := by
  refine ⟨mremapPost p.image ob os nb ns st, ?_, ?_⟩
  · unfold mremap; rw [if_pos hr, hq]; rfl
  · unfold In at h1 h2
    unfold mremapPost
    dsimp only
    by_cases hlt : ns < os
    · rw [if_pos (by simpa using hlt), setRange_out (by omega), if_pos (by simpa using hlt)]
      unfold copyRange
      rw [if_neg (by omega)]
    · rw [if_neg (by simpa using hlt), setRange_out (by omega), if_neg (by simpa using hlt)]
      unfold copyRange
      rw [if_neg (by omega)]

/-- C79: remapping a file, none of whose bytes are in the table of anonymous mappings, leaves that table
as it was. -/
theorem C79_remap_file {y : Sys} {ob os nb ns : Nat} {p : Piece} (hr : mapOk nb = true)
    (hq : y.query nb = some p) (hs : 0 < os) {st : St} (hp : Pos st.tab)
    (hf : ∀ a, In ob os a → ¬ Cov st.tab a) :
    ∃ st', mremap y ob os ns nb st = some st' ∧ ∀ a, Cov st'.tab a ↔ Cov st.tab a := by
  have h : ¬ (treeRemove ob os st.tab).2 = true := by
    intro q
    obtain ⟨a, h1, h2⟩ := (any_over hs hp).1 q
    exact hf a h2 h1
  refine ⟨mremapPost p.image ob os nb ns st, ?_, fun a => ?_⟩
  · unfold mremap; rw [if_pos hr, hq]; rfl
  · unfold mremapPost
    dsimp only
    rw [if_neg h, remove_cov]
    exact ⟨fun q => q.1, fun q => ⟨q, fun g => hf a g q⟩⟩

/-- Two pages that move and become three. -/
example : ∃ st', mremap (plain 0x20000 0x3000) 0x10000 0x2000 0x3000 0x20000
    ⟨setRange (fun _ => .unaddr) 0x10000 0x12000 .defined, [(0x10000, 0x2000)]⟩ = some st' ∧
    st'.sh 0x10000 = .defined ∧ st'.sh 0x20000 = .defined ∧ st'.sh 0x22000 = .undef ∧
    st'.tab = [(0x20000, 0x3000)] :=
  ⟨_, rfl, by decide +kernel, by decide +kernel, by decide +kernel, by decide +kernel⟩

/-! ## Thread stacks -/

theorem treeLookup_some {sp : Nat} {t : List Node} {n : Node} (h : treeLookup sp t = some n) :
    n ∈ t ∧ n.1 ≤ sp ∧ sp < n.1 + n.2 := by
  unfold treeLookup at h
  have h1 := List.find?_some h
  simp only [decide_eq_true_eq] at h1
  exact ⟨List.mem_of_find?_eq_some h, h1⟩

theorem markStack_eq {sh : Shadow} {b sp : Nat} (hb : b ≤ sp) (a : Nat) :
    markStack sh b sp a =
      if b ≤ a ∧ a < sp then (if sp ≤ a + 128 then .undef else .unaddr) else sh a := by
  unfold markStack redzone
  by_cases h1 : sp - 128 < b
  · rw [if_pos h1, show sp - (sp - b) = b by omega]
    by_cases g : b ≤ a ∧ a < sp
    · rw [setRange_in g, if_pos g, if_pos (by omega)]
    · rw [setRange_out g, setRange_out g, if_neg g]
  · rw [if_neg h1]
    by_cases g : b ≤ a ∧ a < sp
    · rw [if_pos g]
      by_cases g2 : sp ≤ a + 128
      · rw [setRange_in (by omega), if_pos g2]
      · rw [setRange_out (by omega), setRange_in g, if_neg g2]
    · rw [setRange_out (by omega), setRange_out g, if_neg g]

/-- C79: a new thread whose stack pointer lies inside a tracked mapping, with `-check_stack_bounds`:
below the stack pointer the mapping becomes unaddressable, but for the 128 bytes the ABI lets the
thread use, which become undefined; every other byte of memory keeps its state, and the threshold for
recognising a switch of stacks drops to 2048 if the stack is smaller than it.  Missing: stacks that end
at the stack pointer (`C79_stack_next`, `C79_stack_query`), stacks from the allocator
(`C79_stack_malloc`). -/
theorem C79_stack_partial {c : Cfg} {sp : Nat} {st : St} {n : Node} (hh : c.inHeap sp = false)
    (hl : treeLookup sp st.tab = some n) (hb : n.1 ≠ 0) (hc : c.bounds = true) :
    (∀ a, (clone c true sp st).1.sh a =
      if n.1 ≤ a ∧ a < sp then (if sp ≤ a + 128 then .undef else .unaddr) else st.sh a) ∧
    (clone c true sp st).1.tab = st.tab ∧
    (clone c true sp st).2 = if n.2 < c.thresh ∧ 2048 < c.thresh then 2048 else c.thresh := by
  obtain ⟨h1, h2, h3⟩ := treeLookup_some hl
  have hst : stackOf c st sp = some n := by
    unfold stackOf
    rw [if_neg (by simp [hh]), hl]
  unfold clone
  rw [if_pos (by simp; omega), hst]
  dsimp only
  rw [if_pos ⟨hb, hc⟩]
  exact ⟨fun a => markStack_eq h2 a, rfl, rfl⟩

/-- A configuration without heap. -/
def noHeap (q : Nat → Option Node) : Cfg :=
  ⟨fun _ => false, fun _ => none, fun _ => none, q, 65536, true, 0x9000⟩

example : (noHeap fun _ => none).inHeap 0x17f00 = false ∧
    treeLookup 0x17f00 [(0x10000, 0x8000)] = some (0x10000, 0x8000) ∧
    (clone (noHeap fun _ => none) true 0x17f00 ⟨fun _ => .defined, [(0x10000, 0x8000)]⟩).1.sh 0x17e7f
      = .unaddr := by decide +kernel

/-- C79: processes that share no memory, a call that names no stack, and the default without
`-check_stack_bounds`: nothing changes. -/
theorem C79_stack_none {c : Cfg} {vm : Bool} {sp : Nat} {st : St}
    (h : vm = false ∨ sp = 0 ∨ c.bounds = false) : clone c vm sp st = (st, c.thresh) := by
  unfold clone
  by_cases hv : vm && sp != 0
  · rw [if_pos hv]
    simp at hv
    split
    · rw [if_neg]
      rintro ⟨_, h1⟩
      rcases h with h | h | h
      · rw [h] at hv; simp at hv
      · exact hv.2 h
      · rw [h] at h1; cases h1
    · rfl
  · rw [if_neg hv]

/-- C79, against the code: if the stack ends where another tracked mapping begins and the stack pointer
is its very end, the other mapping is taken for the stack and nothing is marked. -/
theorem C79_stack_next {c : Cfg} {sp s : Nat} {st : St} (hh : c.inHeap sp = false)
    (hl : treeLookup sp st.tab = some (sp, s)) : ∀ a, (clone c true sp st).1.sh a = st.sh a := by
  intro a
  have hst : stackOf c st sp = some (sp, s) := by
    unfold stackOf
    rw [if_neg (by simp [hh]), hl]
  unfold clone
  split
  · rw [hst]
    dsimp only
    split
    · dsimp only
      rw [markStack_eq (Nat.le_refl _), if_neg (by omega)]
    · rfl
  · rfl

example : treeLookup 0x18000 [(0x10000, 0x8000), (0x18000, 0x1000)] = some (0x18000, 0x1000) := by
  decide +kernel

/-- C79, against the code: if nothing tracked begins at the end of the stack, the core is asked, and
all it has merged with the stack is marked too, such as a mapping just below. -/
theorem C79_stack_query {c : Cfg} {sp : Nat} {st : St} {n : Node} (hh : c.inHeap sp = false)
    (hl : treeLookup sp st.tab = none) (hq : c.query (sp - 1) = some n) (h0 : n.1 ≠ 0)
    (hn : n.1 < sp) (hc : c.bounds = true) :
    ∀ a, (clone c true sp st).1.sh a =
      if n.1 ≤ a ∧ a < sp then (if sp ≤ a + 128 then .undef else .unaddr) else st.sh a := by
  intro a
  have hst : stackOf c st sp = some n := by
    unfold stackOf
    rw [if_neg (by simp [hh]), hl]
    exact hq
  unfold clone
  rw [if_pos (by simp; omega), hst]
  dsimp only
  rw [if_pos ⟨h0, hc⟩]
  exact markStack_eq (by omega) a

/-- Data mapped below a stack and merged with it becomes unaddressable. -/
example : (clone (noHeap fun _ => some (0xf000, 0x9000)) true 0x18000
    ⟨fun _ => .defined, [(0x10000, 0x8000), (0xf000, 0x1000)]⟩).1.sh 0xf000 = .unaddr := by
  decide +kernel

/-- C79, against the code: a stack that is not a large allocation is never found if an unaddressable
dword precedes it in the shadow block: the search gives a multiple of four, and no allocation starts at
that plus one. -/
theorem C79_stack_malloc {c : Cfg} {sp k : Nat} {st : St} (hl : c.large sp = none)
    (hh : c.inHeap sp = true) (hsp : sp % 4 = 0)
    (hch : ∀ a, a % 4 ≠ 0 → c.chunk a = none)
    (hk : 4 * k ≤ sp - sp / c.blk * c.blk) (hu : dwUnaddr st.sh (sp - 4 * k) = true) :
    clone c true sp st = (st, c.thresh) := by
  have hfind : ∃ j, ((List.range ((sp - sp / c.blk * c.blk) / 4 + 1)).find?
      fun k => dwUnaddr st.sh (sp - 4 * k)) = some j ∧ 4 * j ≤ sp := by
    cases e : (List.range ((sp - sp / c.blk * c.blk) / 4 + 1)).find?
      fun k => dwUnaddr st.sh (sp - 4 * k) with
    | none =>
      rw [List.find?_eq_none] at e
      exact absurd hu (e k (List.mem_range.2 (by omega)))
    | some j =>
      have := List.mem_range.1 (List.mem_of_find?_eq_some e)
      exact ⟨j, rfl, by omega⟩
  obtain ⟨j, h1, h2⟩ := hfind
  have hst : stackOf c st sp = none := by
    unfold stackOf
    rw [if_pos hh, hl]
    dsimp only
    rw [prevDword]
    by_cases hlt : sp - c.thresh < sp
    · rw [if_pos hlt, h1]
      dsimp only
      by_cases h3 : sp - c.thresh < sp - 4 * j
      · rw [if_pos h3]
        dsimp only
        rw [hch _ (by omega)]
      · rw [if_neg h3]
    · rw [if_neg hlt]
  unfold clone
  rw [hst]
  split <;> rfl

/-- A stack of two kilobytes from the allocator at 0x10010. -/
def heapStack : Cfg :=
  ⟨fun _ => true, fun _ => none, fun a => if a = 0x10010 then some 2048 else none, fun _ => none,
    65536, true, 0x9000⟩

example : dwUnaddr (setRange (fun _ => .unaddr) 0x10010 0x10810 .undef) (0x10800 - 4 * 509) = true ∧
    (0x10800 - 4 * 509 = 0x1000c) ∧ 4 * 509 ≤ 0x10800 - 0x10800 / 65536 * 65536 := by decide +kernel

/-- C79: a stack in a large allocation is found, and marked as one in a mapping. -/
theorem C79_stack_large {c : Cfg} {sp : Nat} {st : St} {n : Node} (hh : c.inHeap sp = true)
    (hl : c.large sp = some n) (h0 : n.1 ≠ 0) (hn : n.1 ≤ sp) (hc : c.bounds = true) :
    ∀ a, (clone c true sp st).1.sh a =
      if n.1 ≤ a ∧ a < sp then (if sp ≤ a + 128 then .undef else .unaddr) else st.sh a := by
  intro a
  have hst : stackOf c st sp = some n := by
    unfold stackOf
    rw [if_pos hh, hl]
  unfold clone
  rw [if_pos (by simp; omega), hst]
  dsimp only
  rw [if_pos ⟨h0, hc⟩]
  exact markStack_eq hn a

theorem dwUnaddr_iff {sh : Shadow} {a : Nat} :
    dwUnaddr sh a = true ↔ ∀ i, i < 4 → sh (a / 4 * 4 + i) = .unaddr := by
  unfold dwUnaddr
  rw [List.all_eq_true]
  simp only [List.mem_range, decide_eq_true_eq]

/-- C79: a small stack from the allocator is found if it begins in the shadow block before that of the
stack pointer: from there on the search gives addresses one below a multiple of four.  `m` is its
start, preceded by an unaddressable dword; between that and the stack pointer no dword is wholly
unaddressable. -/
theorem C79_stack_across {c : Cfg} {sp m sz : Nat} {st : St} (hh : c.inHeap sp = true)
    (hl : c.large sp = none) (hblk : c.blk % 4 = 0) (hsp : sp % 4 = 0) (hm : m % 4 = 0)
    (h1 : m ≤ sp / c.blk * c.blk) (h2 : (sp / c.blk * c.blk - 1) / c.blk * c.blk < m)
    (hu : ∀ i, i < 4 → st.sh (m - 4 + i) = .unaddr)
    (hno : ∀ d, d % 4 = 0 → m ≤ d → d ≤ sp → ∃ i, i < 4 ∧ st.sh (d + i) ≠ .unaddr)
    (hth : sp - c.thresh < m - 1) (hch : c.chunk m = some sz) (hsz : 0 < sz) (hb : c.bounds = true) :
    ∀ a, (clone c true sp st).1.sh a =
      if m ≤ a ∧ a < sp then (if sp ≤ a + 128 then .undef else .unaddr) else st.sh a := by
  intro a
  have h4 : sp / c.blk * c.blk % 4 = 0 := by
    rw [Nat.mul_mod, hblk, Nat.mul_zero, Nat.zero_mod]
  have hle : sp / c.blk * c.blk ≤ sp := Nat.div_mul_le_self _ _
  have hb4 : (sp / c.blk * c.blk - 1) / c.blk * c.blk % 4 = 0 := by
    rw [Nat.mul_mod, hblk, Nat.mul_zero, Nat.zero_mod]
  generalize hB : sp / c.blk * c.blk = B at *
  generalize hA : (B - 1) / c.blk * c.blk = A at *
  have hst : stackOf c st sp = some (m, sz) := by
    unfold stackOf
    rw [if_pos hh, hl]
    dsimp only
    obtain ⟨t, ht⟩ : ∃ t, c.thresh = t + 1 := ⟨c.thresh - 1, by omega⟩
    have e1 : ((List.range ((sp - B) / 4 + 1)).find? fun k => dwUnaddr st.sh (sp - 4 * k)) = none := by
      rw [List.find?_eq_none]
      intro k hk q
      have hk := List.mem_range.1 hk
      obtain ⟨i, hi, hx⟩ := hno (sp - 4 * k) (by omega) (by omega) (by omega)
      have := dwUnaddr_iff.1 q i hi
      rw [show (sp - 4 * k) / 4 * 4 = sp - 4 * k by omega] at this
      exact hx this
    have e2 : ((List.range ((B - 1 - A) / 4 + 1)).find?
        fun k => dwUnaddr st.sh (B - 1 - 4 * k)) = some ((B - m) / 4) := by
      rw [List.find?_range_eq_some]
      refine ⟨?_, List.mem_range.2 (by omega), ?_⟩
      · rw [dwUnaddr_iff]
        intro i hi
        rw [show (B - 1 - 4 * ((B - m) / 4)) / 4 * 4 = m - 4 by omega]
        exact hu i hi
      · intro j hj
        rw [Bool.not_eq_true']
        rw [← Bool.not_eq_true]
        intro q
        obtain ⟨i, hi, hx⟩ := hno (B - 4 - 4 * j) (by omega) (by omega) (by omega)
        have := dwUnaddr_iff.1 q i hi
        rw [show (B - 1 - 4 * j) / 4 * 4 = B - 4 - 4 * j by omega] at this
        exact hx this
    have e3 : prevDword c.blk st.sh (c.thresh + 1) sp (sp - c.thresh) = some (m - 1) := by
      rw [ht] at hth ⊢
      rw [prevDword, if_pos (by omega), hB, e1]
      dsimp only
      rw [prevDword, if_pos (by omega), hA, e2]
      dsimp only
      rw [show B - 1 - 4 * ((B - m) / 4) = m - 1 by omega, if_pos hth]
    rw [e3]
    dsimp only
    rw [show m - 1 + 1 = m by omega, hch]
    dsimp only
    rw [if_pos hsz]
  unfold clone
  rw [if_pos (by simp; omega), hst]
  dsimp only
  rw [if_pos ⟨by omega, hb⟩]
  exact markStack_eq (by omega) a

/-- A stack of 8 KB at 0x1f010 whose stack pointer is in the next block. -/
example : 0x1f010 ≤ 0x20100 / 65536 * 65536 ∧ (0x20100 / 65536 * 65536 - 1) / 65536 * 65536 < 0x1f010 ∧
    (∀ i, i < 4 → setRange (fun _ => .unaddr) 0x1f010 0x21010 .undef (0x1f010 - 4 + i) = .unaddr) ∧
    (∀ d, d % 4 = 0 → 0x1f010 ≤ d → d ≤ 0x20100 → ∃ i, i < 4 ∧
      setRange (fun _ => .unaddr) 0x1f010 0x21010 .undef (d + i) ≠ .unaddr) := by
  refine ⟨by decide, by decide, fun i hi => setRange_out (by omega), fun d _ h1 h2 => ⟨0, by omega, ?_⟩⟩
  rw [setRange_in (by omega)]
  simp

/-! ## Process names -/

theorem takeWhile_append_comma {e r : List Char} (h : ',' ∉ e) :
    (e ++ ',' :: r).takeWhile (· ≠ ',') = e := by
  induction e with
  | nil => simp
  | cons c e ih =>
    have h1 : c ≠ ',' := fun q => h (by rw [q]; exact List.mem_cons_self)
    have h2 : ',' ∉ e := fun q => h (List.mem_cons_of_mem _ q)
    rw [List.cons_append, List.takeWhile_cons, if_pos (by simp [h1]), ih h2]

theorem takeWhile_no_comma {e : List Char} (h : ',' ∉ e) : e.takeWhile (· ≠ ',') = e := by
  induction e with
  | nil => rfl
  | cons c e ih =>
    have h1 : c ≠ ',' := fun q => h (by rw [q]; exact List.mem_cons_self)
    have h2 : ',' ∉ e := fun q => h (List.mem_cons_of_mem _ q)
    rw [List.takeWhile_cons, if_pos (by simp [h1]), ih h2]

theorem onList_iff (nm : List Char) : ∀ (es : List (List Char)) (n : Nat), (∀ e ∈ es, ',' ∉ e) →
    (text es).length < n → (onList n (text es) nm = true ↔ ∃ e ∈ entries es, e <+: nm)
  | _, 0, _, h => absurd h (by omega)
  | [], n + 1, _, _ => by
    rw [onList, if_pos (by rfl)]
    simp [entries]
  | [e], n + 1, hc, _ => by
    have he : ',' ∉ e := hc e List.mem_cons_self
    unfold text
    rw [onList]
    by_cases h0 : e = []
    · rw [if_pos h0, h0]
      simp [entries]
    · rw [if_neg h0]
      dsimp only
      rw [takeWhile_no_comma he, show entries [e] = [e] by simp [entries, h0]]
      by_cases hp : e <+: nm
      · rw [if_pos (List.isPrefixOf_iff_prefix.2 hp)]
        exact ⟨fun _ => ⟨e, List.mem_cons_self, hp⟩, fun _ => rfl⟩
      · rw [if_neg (fun q => hp (List.isPrefixOf_iff_prefix.1 q)),
          List.drop_eq_nil_of_le (by omega)]
        constructor
        · intro q
          cases n with
          | zero => rw [onList] at q; cases q
          | succ n => rw [onList, if_pos rfl] at q; cases q
        · rintro ⟨x, hx, q⟩
          rw [List.mem_singleton] at hx
          subst hx
          exact absurd q hp
  | e :: f :: es, n + 1, hc, hn => by
    have he : ',' ∉ e := hc e List.mem_cons_self
    have htx : text (e :: f :: es) = e ++ ',' :: text (f :: es) := rfl
    rw [htx] at hn ⊢
    have hlen : (text (f :: es)).length < n := by
      rw [List.length_append, List.length_cons] at hn
      omega
    have hent : entries (e :: f :: es) = e :: entries (f :: es) := by
      unfold entries
      rw [List.getLast?_cons_cons]
      split
      · rfl
      · rfl
    rw [onList, if_neg (by simp)]
    dsimp only
    rw [takeWhile_append_comma he, hent]
    by_cases hp : e <+: nm
    · rw [if_pos (List.isPrefixOf_iff_prefix.2 hp)]
      exact ⟨fun _ => ⟨e, List.mem_cons_self, hp⟩, fun _ => rfl⟩
    · rw [if_neg (fun q => hp (List.isPrefixOf_iff_prefix.1 q)),
        show (e ++ ',' :: text (f :: es)).drop (e.length + 1) = text (f :: es) by
          rw [List.drop_append, List.drop_eq_nil_of_le (by omega), Nat.add_sub_cancel_left]; rfl,
        onList_iff nm (f :: es) n (fun x hx => hc x (List.mem_cons_of_mem _ hx)) hlen]
      constructor
      · rintro ⟨x, hx, q⟩
        exact ⟨x, List.mem_cons_of_mem _ hx, q⟩
      · rintro ⟨x, hx, q⟩
        rcases List.mem_cons.1 hx with rfl | hx
        · exact absurd q hp
        · exact ⟨x, hx, q⟩

/-- C79: when a process sets its name, checking stays on iff some entry of the list begins the name (of
which the first sixteen bytes count).  The option says "is on the list": see `C79_names_longer`. -/
theorem C79_names {es : List (List Char)} (hc : ∀ e ∈ es, ',' ∉ e) (hne : text es ≠ [])
    (bytes : List Char) :
    prctlOff (text es) 15 (some bytes) = false ↔
      ∃ e ∈ entries es, e <+: (bytes.take 16).takeWhile (· ≠ Char.ofNat 0) := by
  unfold prctlOff
  rw [if_pos ⟨rfl, hne⟩]
  dsimp only
  rw [Bool.not_eq_false', onList_iff _ es _ hc (by omega)]
  rfl

example : prctlOff (text ["init".toList, "sshd".toList]) 15 (some "sshd\x00garbage....".toList) = false ∧
    prctlOff (text ["init".toList, "sshd".toList]) 15 (some "cron\x00garbage....".toList) = true := by
  decide +kernel

/-- C79, against the option's text: a name that is not on the list but begins with an entry keeps
checking on. -/
theorem C79_names_longer {es : List (List Char)} (hc : ∀ e ∈ es, ',' ∉ e) {e r : List Char}
    (he : e ∈ entries es) (hne : text es ≠ []) (hl : (e ++ r).length ≤ 16)
    (h0 : Char.ofNat 0 ∉ e ++ r) : prctlOff (text es) 15 (some (e ++ r)) = false := by
  rw [C79_names hc hne]
  refine ⟨e, he, ?_⟩
  rw [List.take_of_length_le hl]
  have : ∀ l : List Char, Char.ofNat 0 ∉ l → l.takeWhile (· ≠ Char.ofNat 0) = l := by
    intro l hl
    induction l with
    | nil => rfl
    | cons c l ih =>
      rw [List.takeWhile_cons, if_pos, ih fun q => hl (List.mem_cons_of_mem _ q)]
      simp only [ne_eq, decide_eq_true_eq]
      intro q
      exact hl (by rw [q]; exact List.mem_cons_self)
  rw [this _ h0]
  exact List.prefix_append e r

example : prctlOff (text ["sh".toList]) 15 (some "showmount".toList) = false := by decide +kernel

/-- C79, against the option's text: with an empty entry before the last, as in `a,,b`, checking is
never switched off. -/
theorem C79_names_empty {es : List (List Char)} (hc : ∀ e ∈ es, ',' ∉ e)
    (he : [] ∈ entries es) (hne : text es ≠ []) (bytes : List Char) :
    prctlOff (text es) 15 (some bytes) = false :=
  (C79_names hc hne bytes).2 ⟨[], he, List.nil_prefix⟩

example : [] ∈ entries ["a".toList, [], "b".toList] ∧ text ["a".toList, [], "b".toList] = "a,,b".toList := by
  decide +kernel

/-- C79, against the option's text: entries of more than sixteen characters match no name. -/
theorem C79_names_long {es : List (List Char)} (hc : ∀ e ∈ es, ',' ∉ e) (hne : text es ≠ [])
    (hl : ∀ e ∈ entries es, 16 < e.length) (bytes : List Char) :
    prctlOff (text es) 15 (some bytes) = true := by
  rw [← Bool.not_eq_false, C79_names hc hne]
  rintro ⟨e, he, hp⟩
  have h1 := hp.length_le
  have h2 : ((bytes.take 16).takeWhile (· ≠ Char.ofNat 0)).length ≤ 16 :=
    Nat.le_trans (List.takeWhile_prefix _).length_le (by rw [List.length_take]; omega)
  have := hl e he
  omega

/-- C79: without a list, for other requests, and for a name of which sixteen bytes cannot be read,
checking stays on. -/
theorem C79_names_else {list : List Char} {req : Nat} {name : Option (List Char)}
    (h : list = [] ∨ req ≠ 15 ∨ name = none) : prctlOff list req name = false := by
  unfold prctlOff
  split
  · rename_i h1
    rcases h with h | h | h
    · exact absurd h h1.2
    · exact absurd h1.1 h
    · rw [h]
  · rfl

end Verif.Mapping
