import Verif.WrapRealloc
/-
C74: where the heap in wrapping mode does not do what one would like.
-/
namespace Verif.Wrap

/-- Events from the start. -/
def play (rz : Nat) (es : List Ev) : St × List Report :=
  es.foldl (fun a e => ((step rz a.1 e).1, a.2 ++ (step rz a.1 e).2)) (St.init, [])

/-- Three blocks: of malloc, of new, and of malloc. -/
def three : List Ev :=
  [.malloc 0 100 .malloc, .under 0 0x1000 136, .post 0, .malloc 0 40 .new, .under 0 0x2000 72, .post 0]

/-- A free of a pointer that is not a block is reported, and passed on as it is: that of the base of the
real block, a redzone before the application's, really frees it, while the application still owns the
block.  (alloc.c:5376-5405; the restriction of the theorems to runs without invalid frees is needed.) -/
theorem C74_invalid_free_frees :
    (play 16 (three ++ [.free 0 0x1000 .malloc false 0, .underFree 0])).2 = [.invalid 0x1000] ∧
    (play 16 (three ++ [.free 0 0x1000 .malloc false 0, .underFree 0])).1.own 0x1010 =
      some ⟨100, .malloc, 0x1000, false⟩ ∧
    (play 16 (three ++ [.free 0 0x1000 .malloc false 0, .underFree 0])).1.heap 0x1000 = none := by decide +kernel

/-- After a free 4 bytes inside a block that was from new, reported as such, a free() of the block itself
is no mismatch any more: it has been looked at (alloc.c:3974-3985). -/
theorem C74_mismatch_lost :
    (play 16 (three ++ [.free 0 0x2014 .new false 0])).2 = [.invalid 0x2014] ∧
    (play 16 (three ++ [.free 0 0x2014 .new false 0])).1.own 0x2010 = some ⟨40, .new, 0x2000, false⟩ ∧
    (step 16 (play 16 (three ++ [.free 0 0x2014 .new false 0, .underFree 0])).1
      (.free 0 0x2010 .malloc false 0x2000)).2 = [] ∧
    (step 16 (play 16 three).1 (.free 0 0x2010 .malloc false 0x2000)).2 = [.mismatch 0x2010 .new .malloc] := by
  decide +kernel

/-- The size of NULL is reported, and as an error, though it is 0 (alloc.c:5535-5541: the routine is no
free, so that NULL is not let off, report.c:3133-3139). -/
theorem C74_size_null (rz : Nat) (tab : Table) (h : tab 0 = none) : sizePre rz 0 tab = (0, [.invalid 0]) := by
  have : visible tab 0 = false := by unfold visible; rw [h]
  unfold sizePre
  rw [this]
  rfl

/-- The size of a block that is not known, as one of memalign, which wrapping does not handle
(alloc.c:2549-2555), is asked of the allocator as it is, and then made less by two redzones. -/
theorem C74_size_unknown (rz p res : Nat) (tab : Table) (hp : p ≠ 0) (h : tab p = none) (hz : rz * 2 ≤ res) (hr : 0 < res)
    (hw : res < W) : sizePre rz p tab = (p, [.invalid p]) ∧ sizePost rz p res tab = res - rz * 2 := by
  have h1 : visible tab p = false := by unfold visible; rw [h]
  have h2 : isPreUs tab p = false := by unfold isPreUs; rw [h]
  refine ⟨by unfold sizePre; rw [h1]; rfl, ?_⟩
  unfold sizePost
  rw [h2, if_pos ⟨by omega, rfl, hp⟩]
  unfold W at *
  omega

/-- ... which may be less than nothing. -/
theorem C74_size_unknown_wraps : sizePost 16 0x5000 24 (fun _ => none) = 0xfffffffffffffff8 := by decide +kernel

/-- The usable size is more than what counts as the block: the bytes between are in the redzone, and an
application that uses what it is told it may is told that it may not. -/
theorem C74_usable_redzone :
    (play 16 three).1.own 0x1010 = some ⟨100, .malloc, 0x1000, false⟩ ∧
    sizePost 16 0x1010 136 (play 16 three).1.tab = 104 ∧
    ((play 16 three).1.tab 0x1010).map Entry.stop = some (0x1010 + 100) := by decide +kernel

/-- The replacement of realloc, of a pointer that is not one, says NULL as when there is no memory, and
no one is told of the pointer (alloc.c:5945-5950). -/
theorem C74_realloc_invalid (p n q : Nat) (hp : p ≠ 0) (mem : Nat → Nat) (tab : Table) (h : tab p = none) :
    realloc (chunkSize tab p) p n q mem = ⟨mem, 0, none⟩ := by
  have : chunkSize tab p = none := by unfold chunkSize; rw [h]
  exact (C74_realloc_else _ p n q mem).1 hp this

/-- realloc(NULL, n) frees NULL, and the free is warned of. -/
theorem C74_realloc_null_warns (n q : Nat) (hq : q ≠ 0) (mem : Nat → Nat) (rz : Nat) (tab : Table) (h : tab 0 = none) :
    (realloc (chunkSize tab 0) 0 n q mem).freed = some 0 ∧ (freePre rz 0 .malloc true tab).reps = [.nullFree] := by
  constructor
  · rw [(C74_realloc_else _ 0 n q mem).2.2.2 rfl hq]
  · unfold freePre
    rw [if_neg (by simp)]
    dsimp only
    rw [h]
    rfl

/-- realloc of what is from new is no mismatch: the free is not of the outer layer (alloc.c:5355). -/
theorem C74_realloc_new :
    (step 16 (play 16 three).1 (.free 0 0x2010 .malloc true 0x2000)).2 = [] ∧
    (play 16 three).1.own 0x2010 = some ⟨40, .new, 0x2000, false⟩ := by decide +kernel

/-! ### realloc as it is (-no_replace_realloc) -/

/-- The call, from the pointer and the size, with what the allocator answers. -/
def plainRealloc (rz p n r : Nat) (tab : Table) : Table × Nat × List Report :=
  let a := reallocPre rz p n tab
  match a.2.2.2.1 with
  | some e =>
    let b := reallocPost rz p n r e e.kind a.2.2.1
    (b.1, b.2.1, a.2.2.2.2 ++ b.2.2)
  | none => (a.2.2.1, r, a.2.2.2.2)

/-- A realloc that moves a block: the new one is in the table, and the old one is still there, without
being valid; to free the old one is then not reported, for handle_free_pre only looks whether there is an
entry (alloc.c:5343-5376). -/
theorem C74_realloc_stale (rz p n r : Nat) (tab : Table) (e : Entry) (h : tab p = some e) (hv : e.valid = true)
    (hr : r ≠ 0) (hn : n ≠ 0) (hm : r + rz ≠ p) (how : Kind) (inner : Bool) :
    (plainRealloc rz p n r tab).2.1 = r + rz ∧ (plainRealloc rz p n r tab).2.2 = [] ∧
    chunkSize (plainRealloc rz p n r tab).1 p = none ∧
    (freePre rz p how inner (plainRealloc rz p n r tab).1).gone ≠ none := by
  have h1 : reallocPre rz p n tab = (realBase rz p e, (if n > 0 then grow rz n else n),
      upd tab p (some { e with valid := false }), some e, []) := by
    unfold reallocPre
    rw [h]
    dsimp only
    rw [if_pos hv]
    unfold setValid
    rw [h]
  have h2 : ∃ f, (plainRealloc rz p n r tab) =
      (upd (upd tab p (some { e with valid := false })) (r + rz) (some f), r + rz, []) := by
    unfold plainRealloc
    rw [h1]
    dsimp only
    unfold reallocPost
    rw [if_pos hr, if_pos hn]
    exact ⟨_, rfl⟩
  obtain ⟨f, h2⟩ := h2
  rw [h2]
  have h3 : (upd (upd tab p (some { e with valid := false })) (r + rz) (some f)) p =
      some { e with valid := false } := by
    rw [upd_other _ _ _ _ (Ne.symm hm), upd_self]
  refine ⟨rfl, rfl, ?_, ?_⟩
  · unfold chunkSize
    dsimp only
    rw [h3]
    rfl
  · unfold freePre
    dsimp only
    have key : ∀ (T : Table) (q : Nat), T p ≠ none → (typeAt T q).2 p ≠ none := by
      intro T q hT
      by_cases hq : p = q
      · subst hq
        unfold typeAt
        split
        · exact hT
        · dsimp only; rw [upd_self]; intro h; cases h
      · rw [typeAt_other T q p hq]; exact hT
    have hck : ∀ T : Table, T p ≠ none → (checkAt T p how).1 p ≠ none := by
      intro T hT
      unfold checkAt
      dsimp only
      split
      · exact key _ _ hT
      · split
        · exact key _ _ (key _ _ hT)
        · exact key _ _ (key _ _ (key _ _ hT))
    split
    · rename_i hnone
      exfalso
      split at hnone
      · exact hck _ (by rw [h3]; intro h; cases h) hnone
      · dsimp only at hnone; rw [h3] at hnone; cases hnone
    · intro h; cases h

/-- The same in a concrete case, with all that is reported: free of the old pointer of a realloc says
nothing. -/
theorem C74_realloc_double_free :
    (plainRealloc 16 0x1010 200 0x3000 (play 16 three).1.tab).2 = (0x3010, []) ∧
    (freePre 16 0x1010 .malloc false (plainRealloc 16 0x1010 200 0x3000 (play 16 three).1.tab).1).reps = [] ∧
    (freePre 16 0x1010 .malloc false (plainRealloc 16 0x1010 200 0x3000 (play 16 three).1.tab).1).gone =
      some 0x1000 := by decide +kernel

/-- So too after realloc(p, 0) has freed the block. -/
theorem C74_realloc_zero_double_free :
    (plainRealloc 16 0x1010 0 0 (play 16 three).1.tab).2 = (0, []) ∧
    (freePre 16 0x1010 .malloc false (plainRealloc 16 0x1010 0 0 (play 16 three).1.tab).1).reps = [] := by
  decide +kernel

/-- realloc of a block from before the tool gives one with redzones that is recorded as having none: the
flag is that of the old block (alloc.c:6084-6098). -/
theorem C74_realloc_preus :
    (plainRealloc 16 0x9000 50 0x3000 (play 16 [.attach 0x9000 20 24]).1.tab).2 = (0x3010, []) ∧
    ((plainRealloc 16 0x9000 50 0x3000 (play 16 [.attach 0x9000 20 24]).1.tab).1 0x3010).map
      (fun e => (e.redzone, realBase 16 0x3010 e)) = some (false, 0x3000) := by decide +kernel

end Verif.Wrap
