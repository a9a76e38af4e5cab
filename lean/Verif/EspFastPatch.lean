import Verif.EspFastThms
/-!
# Changing the swap threshold in the generated code
-/
namespace Verif.EspFast
open Umbra32 (Map W W_eq)

/-- The scan of `esp_fastpath_update_swap_threshold` over one routine (drmemory/stack_x86.c:1257-1294); the
first argument counts the comparisons changed.  `old` is `options.stack_swap_threshold`. -/
def patch (old new : Nat) : Nat → List I → List I
  | _, [] => []
  | k, i :: rest =>
    if 2 ≤ k then i :: rest
    else match i with
      | .cmpi r n =>
        if n = old then .cmpi r new :: patch old new (k + 1) rest
        else if n = (W - old) % W then .cmpi r ((W - new) % W) :: patch old new (k + 1) rest
        else i :: patch old new k rest
      | _ => i :: patch old new k rest

/-- `esp_fastpath_update_swap_threshold` (stack_x86.c:1238-1299): the routines for
`ESP_ADJUST_ABSOLUTE` are changed, for either action and either state of the flags. -/
def updateThreshold (old new : Nat) (code : Bool → Bool → Ty → List I) : Bool → Bool → Ty → List I :=
  fun d l t => if t = .absolute then patch old new 0 (code d l t) else code d l t

/-- All the routines as generated (drmemory/stack.c:489-525). -/
def routines (uninit : Bool) (thresh : Nat) : Bool → Bool → Ty → List I :=
  fun d l t => prog ⟨t, d, l, uninit, thresh⟩

theorem patch_two (old new : Nat) (l : List I) : patch old new 2 l = l := by
  cases l with
  | nil => rfl
  | cons i l => unfold patch; rw [if_pos (by omega)]

/-- What the change does to one routine that compares with the threshold. -/
theorem patch_prog {g : Gen} (ha : isAbs g.ty = true) (h0 : 0 < g.thresh) (hH : g.thresh < H) (new : Nat) :
    patch g.thresh new 0 (prog g) = prog { g with thresh := new } := by
  have hp : ∀ g, prog g = entry g ++ body g := fun g => by simp only [prog, body, List.append_assoc]
  have hne : (W - g.thresh) % W ≠ g.thresh := by
    have := H_eq
    rw [W_eq]; omega
  rw [hp, hp]
  rcases g with ⟨ty, d, l, u, t⟩
  dsimp only at *
  have hr : ty ≠ .retImmed := by intro h; rw [h] at ha; exact absurd ha (by decide)
  have hb : body ⟨ty, d, l, u, new⟩ = body ⟨ty, d, l, u, t⟩ := rfl
  unfold entry
  dsimp only
  rw [if_neg hr, ha, if_pos rfl, hb]
  cases l
  · simp only [Bool.false_eq_true, if_false, if_true, List.cons_append, List.nil_append, List.append_nil, patch,
      Nat.reduceLeDiff, hne]
  · simp only [if_false, if_true, List.cons_append, List.nil_append, List.append_nil, patch,
      saveFlags, Nat.reduceLeDiff, hne]

/-- **C60, changing the threshold.**  After the change the routines for plain assignments to the stack pointer
are those that would be generated with the new threshold. -/
theorem C60_threshold {old new : Nat} (h0 : 0 < old) (hH : old < H) (u d l : Bool) :
    updateThreshold old new (routines u old) d l .absolute = routines u new d l .absolute := by
  rw [updateThreshold, if_pos rfl]
  exact patch_prog (g := ⟨.absolute, d, l, u, old⟩) rfl h0 hH new

/-- **C60, finding.**  The routines for `leave` and for `and` compare with the threshold too, but keep the
old one (the comment at stack_x86.c:1251-1253 says that only one kind checks for a swap). -/
theorem C60_threshold_stale {old new : Nat} (hn : new ≠ old) (u d l : Bool)
    {t : Ty} (ht : t = .absolutePostpop ∨ t = .and) :
    updateThreshold old new (routines u old) d l t = routines u old d l t ∧
    updateThreshold old new (routines u old) d l t ≠ routines u new d l t := by
  have ha : isAbs t = true := by rcases ht with rfl | rfl <;> rfl
  have h1 : updateThreshold old new (routines u old) d l t = routines u old d l t := by
    rw [updateThreshold, if_neg (by rcases ht with rfl | rfl <;> decide)]
  refine ⟨h1, ?_⟩
  rw [h1]
  intro h
  unfold routines prog entry at h
  dsimp only at h
  rw [ha, if_pos rfl, if_pos rfl] at h
  cases l <;> simp at h <;> exact hn h.1.symm

/-- With the default threshold lowered to its minimum (stack.c:72, 90-95). -/
example (u d l : Bool) : updateThreshold 0x9000 2048 (routines u 0x9000) d l .absolute =
    routines u 2048 d l .absolute :=
  C60_threshold (by omega) (by rw [H_eq]; omega) u d l

end Verif.EspFast
