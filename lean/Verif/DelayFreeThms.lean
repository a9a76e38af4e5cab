import Verif.DelayFreeRun

/-!
# C27: delayed frees in the wrapping mode

Everything is stated for runs that start with the empty queue `init junk`.  `freed o cs` are the
blocks the application frees, `passed rets` the addresses handed to the real `free` and `waiting q`
the blocks still in the queue.
-/
namespace Verif.DelayFree
open Verif

-- keeps the elaborator from computing with 2^64 in unary
attribute [local irreducible] W

/-- A legal configuration: delaying is on, the size limit is a 32-bit option and the array has
`delay_frees` entries. -/
structure Conf (o : Opts) (junk : List Ent) : Prop where
  on : 0 < o.delay
  mx : o.maxsz < 2 ^ 32
  len : junk.length = o.delay

theorem ring_init (junk : List Ent) : ring (init junk) = [] := by
  simp [ring, init]

theorem Conf.si {o : Opts} {junk : List Ent} (h : Conf o junk) : SI o (init junk) := by
  refine ⟨h.len, h.on, Nat.zero_le _, fun _ => rfl, h.mx, fun _ => rfl, Nat.zero_le _, ?_, ?_⟩
  · rw [ring_init]; exact Nat.le_refl _
  · exact ⟨trivial, ⟨_, rfl⟩, rfl⟩

theorem Conf.K {o : Opts} {junk : List Ent} (h : Conf o junk) : K o (init junk) [] := by
  refine ⟨h.si, ⟨RB.Valid.nil, by simp [init, RB.toList], ?_⟩, rfl, ?_, ?_, ?_⟩
  · intro i hi; exact absurd hi (Nat.not_lt_zero _)
  · intro b s; simp [init, holds, RB.toList]
  · simp [waiting, ring_init, live]
  · simp [la, ring_init, live]

/-- What is passed to the real `free` when nothing is delayed. -/
def direct (o : Opts) : Call → Option (Nat × Nat)
  | .free m aux => some (m.start o, aux)
  | .destroy _ => none

/-- With `-delay_frees 0` every block is passed on at once. -/
theorem C27_off {o : Opts} (h : o.delay = 0) (cs : List Call) (q : Q) :
    run o cs q = some (q, cs.map (direct o)) := by
  induction cs with
  | nil => rfl
  | cons c cs ih =>
    unfold run
    cases c <;> simp [step, handleFree, heapDestroy, h, ih, direct]

/-- Whatever is freed and destroyed, the code always finds a tree node where it needs one, and no
block is passed on twice, or passed on and still waiting, or invented: the blocks passed on, the
blocks waiting and some others (`lost`) are together exactly the blocks that were freed. -/
theorem C27_once {o : Opts} {junk : List Ent} (hc : Conf o junk) (cs : List Call)
    (hp : Proper o cs) : ∃ q rets, run o cs (init junk) = some (q, rets) ∧ ∃ lost,
      (passed rets ++ (waiting q).map (·.addr) ++ lost).Perm ((freed o cs).map (·.addr)) := by
  obtain ⟨q, rets, h1, -, lost, h2, -⟩ := run_perm cs hc.si hp
  refine ⟨q, rets, h1, lost, ?_⟩
  rw [ring_init] at h2
  exact h2

/-- The queue never holds more than `delay_frees` blocks or `delay_frees_maxsz` bytes. -/
theorem C27_limit {o : Opts} {junk : List Ent} (hc : Conf o junk) (cs : List Call)
    (hp : Proper o cs) {q : Q} {rets : List (Option (Nat × Nat))}
    (hr : run o cs (init junk) = some (q, rets)) :
    (waiting q).length ≤ o.delay ∧ bytes (waiting q) ≤ o.maxsz := by
  obtain ⟨q', rets', h1, h2, -⟩ := run_perm cs hc.si hp
  rw [hr, Option.some.injEq] at h1
  obtain ⟨rfl, rfl⟩ := Prod.mk.inj h1
  constructor
  · have := ring_length h2
    have := h2.fl
    have : (waiting q).length ≤ (ring q).length := List.length_filter_le _ _
    omega
  · have h3 := h2.sum
    have := h2.lim
    have : total (ring q) = bytes (waiting q) := rfl
    omega

/-- Without destroyed heaps and as long as no block meets a full queue over the byte limit whose
oldest block is smaller than itself (`NoSqueeze`), nothing is lost: every block freed was passed on
exactly once or is waiting, and the byte count is the number of bytes waiting.
Missing from the full statement: the excluded cases; see `C27_lost` and `C27_bytes_after_destroy`
for why they cannot be included. -/
theorem C27_conserve_partial {o : Opts} {junk : List Ent} (hc : Conf o junk) (cs : List Call)
    (hp : Proper o cs) (hd : NoDestroy cs) (hs : NoSqueeze o cs (init junk)) :
    ∃ q rets, run o cs (init junk) = some (q, rets) ∧
      (passed rets ++ (waiting q).map (·.addr)).Perm ((freed o cs).map (·.addr)) ∧
      q.bytes = bytes (waiting q) := by
  obtain ⟨q, rets, h1, -, lost, h2, h3⟩ := run_perm cs hc.si hp
  obtain ⟨rfl, h4⟩ := h3 hd hs
  rw [ring_init] at h2 h4
  refine ⟨q, rets, h1, by rw [List.append_nil] at h2; exact h2, ?_⟩
  have e1 : total ([] : List Ent) = 0 := rfl
  have e2 : (init junk).bytes = 0 := rfl
  have e3 : total (ring q) = bytes (waiting q) := rfl
  omega

/-! ## When nothing can be lost, in terms of what the application frees -/

theorem Step.bytes_le {o : Opts} {e : Ent} {R R' : List Ent} {B B' : Nat} {ret : Nat × Nat}
    (h : Step o e R B ret R' B') : B' ≤ B + e.size := by
  cases h <;> omega

theorem noSqueeze_small {o : Opts} : ∀ (cs : List Call) {q : Q}, SI o q → NoDestroy cs →
    q.bytes + bytes (freed o cs) ≤ o.maxsz → NoSqueeze o cs q := by
  intro cs
  induction cs with
  | nil => intro q _ _ _; trivial
  | cons c cs ih =>
    intro q h hd hb
    cases c with
    | destroy x => exact absurd List.mem_cons_self (hd x)
    | free m aux =>
      have hb' : q.bytes + (m.tot o + bytes (freed o cs)) ≤ o.maxsz := by
        have : bytes (freed o (.free m aux :: cs)) = m.tot o + bytes (freed o cs) :=
          bytes_cons (ent o m aux) _
        omega
      refine ⟨fun _ hx => by omega, ?_⟩
      rintro ⟨q1, r⟩ hr
      obtain ⟨q2, ret, h1, h2, st⟩ := handleFree_step h m aux
      simp only [step, h1, Option.map_some, Option.some.injEq] at hr
      obtain ⟨rfl, rfl⟩ := Prod.mk.inj hr
      refine ih h2 (fun x hx => hd x (List.mem_cons_of_mem _ hx)) ?_
      have := st.bytes_le
      have : (ent o m aux).size = m.tot o := rfl
      dsimp only
      omega

/-- If all blocks together fit into the byte limit, nothing is lost. -/
theorem C27_conserve_small {o : Opts} {junk : List Ent} (hc : Conf o junk) (cs : List Call)
    (hp : Proper o cs) (hd : NoDestroy cs) (hb : bytes (freed o cs) ≤ o.maxsz) :
    ∃ q rets, run o cs (init junk) = some (q, rets) ∧
      (passed rets ++ (waiting q).map (·.addr)).Perm ((freed o cs).map (·.addr)) ∧
      q.bytes = bytes (waiting q) :=
  C27_conserve_partial hc cs hp hd (noSqueeze_small cs hc.si hd (by
    have : (init junk).bytes = 0 := rfl
    omega))

theorem noSqueeze_same {o : Opts} (s : Nat) : ∀ (cs : List Call) {q : Q}, SI o q → NoDestroy cs →
    (∀ e ∈ live (ring q), e.size = s) → (∀ e ∈ freed o cs, e.size = s) → NoSqueeze o cs q := by
  intro cs
  induction cs with
  | nil => intro q _ _ _ _; trivial
  | cons c cs ih =>
    intro q h hd hq hb
    cases c with
    | destroy x => exact absurd List.mem_cons_self (hd x)
    | free m aux =>
      have hm : m.tot o = s := hb (ent o m aux) List.mem_cons_self
      refine ⟨?_, ?_⟩
      · intro _ _ x T hx
        by_cases h0 : x.addr = 0
        · exact .inl h0
        · right
          have := hq x (mem_live.2 ⟨by rw [hx]; exact List.mem_cons_self, h0⟩)
          omega
      · rintro ⟨q1, r⟩ hr
        obtain ⟨q2, ret, h1, h2, st⟩ := handleFree_step h m aux
        simp only [step, h1, Option.map_some, Option.some.injEq] at hr
        obtain ⟨rfl, rfl⟩ := Prod.mk.inj hr
        refine ih h2 (fun x hx => hd x (List.mem_cons_of_mem _ hx)) ?_
          (fun e he => hb e (List.mem_cons_of_mem _ he))
        intro e he
        rcases st.sub e he with h | h
        · exact hq e h
        · rw [h]; exact hm

/-- If all blocks have the same size, nothing is lost, however small the byte limit. -/
theorem C27_conserve_same {o : Opts} {junk : List Ent} (hc : Conf o junk) (cs : List Call)
    (hp : Proper o cs) (hd : NoDestroy cs) (s : Nat) (hb : ∀ e ∈ freed o cs, e.size = s) :
    ∃ q rets, run o cs (init junk) = some (q, rets) ∧
      (passed rets ++ (waiting q).map (·.addr)).Perm ((freed o cs).map (·.addr)) ∧
      q.bytes = bytes (waiting q) :=
  C27_conserve_partial hc cs hp hd (noSqueeze_same s cs hc.si hd (by
    rw [ring_init]; simp [live]) hb)

/-! ## Order -/

/-- As long as any `delay_frees + 1` consecutive blocks fit into the byte limit, the queue is
first in, first out: the `i`-th call of `free` passes NULL while the queue fills up, and then
exactly the block freed `delay_frees` calls before, with that block's own auxarg. -/
theorem C27_fifo {o : Opts} {junk : List Ent} (hc : Conf o junk) (cs : List Call)
    (hp : Proper o cs) (hd : NoDestroy cs) (hw : Windows o (freed o cs)) :
    ∃ q rets, run o cs (init junk) = some (q, rets) ∧ rets.length = cs.length ∧
      ∀ i, i < cs.length → ∃ e ∈ (freed o cs)[i]?,
        rets[i]? = if i < o.delay then some (some (0, e.aux)) else
          (freed o cs)[i - o.delay]?.map fun x => some (x.addr, x.aux) := by
  have h := run_fifo hc.on cs hc.si hd hp (by rw [ring_init]; simp) (by rw [ring_init]; rfl)
    (by rw [ring_init]; exact hw)
  rw [ring_init] at h
  simpa using h

/-- Blocks are not passed on early: in a run without destroyed heaps and without squeezing, a
block that fits next to the bytes waiting is delayed, and the call passes either NULL or, if all
`delay_frees` slots are in use, the block that has been waiting longest.
Missing: the cases excluded for `C27_conserve_partial`, and the order in which blocks leave when
the byte limit is hit (the oldest block that is large enough, see `Step`). -/
theorem C27_not_early_partial {o : Opts} {junk : List Ent} (hc : Conf o junk) (cs : List Call)
    (hp : Proper o cs) (hd : NoDestroy cs) (hs : NoSqueeze o cs (init junk))
    {q : Q} {rets : List (Option (Nat × Nat))}
    (hr : run o cs (init junk) = some (q, rets)) (m : Mal) (aux : Nat) (h0 : m.start o ≠ 0)
    (hfit : bytes (waiting q) + m.tot o ≤ o.maxsz) :
    ∃ q' ret, handleFree o m aux q = some (q', ret) ∧ (waiting q').getLast? = some (ent o m aux) ∧
      ((ret.1 = 0 ∧ waiting q' = waiting q ++ [ent o m aux]) ∨
       (q.fill = o.delay ∧ ∃ x T, waiting q = x :: T ∧ ret = (x.addr, x.aux) ∧
         waiting q' = T ++ [ent o m aux])) := by
  obtain ⟨q1, rets1, h1, hsi, -⟩ := run_perm cs hc.si hp
  obtain ⟨q2, rets2, h2, -, hb⟩ := C27_conserve_partial hc cs hp hd hs
  rw [hr, Option.some.injEq] at h1 h2
  obtain ⟨rfl, rfl⟩ := Prod.mk.inj h1
  obtain ⟨rfl, rfl⟩ := Prod.mk.inj h2
  obtain ⟨q', ret, e1, e2, st⟩ := handleFree_step hsi m aux
  refine ⟨q', ret, e1, ?_⟩
  have he : live [ent o m aux] = [ent o m aux] := by
    rw [live_cons, if_neg (show (ent o m aux).addr ≠ 0 from h0)]; rfl
  rcases st.fits hc.on (by rw [hb]; exact hfit) with ⟨-, f1, f2, -⟩ | ⟨f0, x, T, f1, f2, f3, -⟩
  · have hw : waiting q' = waiting q ++ [ent o m aux] := by
      unfold waiting; rw [f2, live_append, he]
    refine ⟨by rw [hw]; simp, .inl ⟨by rw [f1], hw⟩⟩
  · have hw' : waiting q' = live T ++ [ent o m aux] := by
      unfold waiting; rw [f3, live_append, he]
    refine ⟨by rw [hw']; simp, ?_⟩
    by_cases hx : x.addr = 0
    · refine .inl ⟨by rw [f2]; exact hx, ?_⟩
      rw [hw']; unfold waiting; rw [f1, live_cons, if_pos hx]
    · refine .inr ⟨by rw [← ring_length hsi]; exact f0, x, live T, ?_, f2, hw'⟩
      unfold waiting; rw [f1, live_cons, if_neg hx]

/-! ## The tree, the assertions and the overlap query -/

/-- If the application frees only blocks that share no byte with a block it has freed and that was
not yet passed on, and heaps are never destroyed, no assertion of the code fails. -/
theorem C27_asserts_partial {o : Opts} {junk : List Ent} (hc : Conf o junk) (cs : List Call)
    (ha : AppOk o cs (init junk) []) (hd : NoDestroy cs ∨ NoSqueeze o cs (init junk)) :
    ∃ q rets, run o cs (init junk) = some (q, rets) ∧ q.bad = false := by
  obtain ⟨q, rets, h1, h2, -⟩ := run_K cs hc.K ha (hd.imp id fun h => ⟨h, by simp⟩)
  exact ⟨q, rets, h1, h2.ok⟩

theorem waiting_slot {o : Opts} {q : Q} (h : SI o q) {e : Ent} (he : e ∈ waiting q) :
    ∃ i, i < q.fill ∧ q.at i = e := by
  have h1 := (mem_live.1 he).1
  have h2 : e ∈ q.list.take q.fill := by
    unfold ring at h1
    rcases List.mem_append.1 h1 with h | h
    · exact List.mem_of_mem_drop h
    · exact List.mem_of_mem_take h
  obtain ⟨i, hi, hh⟩ := List.getElem_of_mem h2
  rw [List.length_take] at hi
  rw [List.getElem_take] at hh
  refine ⟨i, by omega, ?_⟩
  unfold Q.at
  rw [List.getD_eq_getElem?_getD, List.getElem?_eq_getElem (by omega), hh]
  rfl

/-- The overlap query for an access finds a freed block iff the access meets one that has not
been passed on, and then reports the bounds of such a block without its redzones.  Missing: as in
`C27_conserve_partial` the runs that squeeze. -/
theorem C27_overlap_partial {o : Opts} {junk : List Ent} (hc : Conf o junk) (cs : List Call)
    (ha : AppOk o cs (init junk) []) (hs : NoSqueeze o cs (init junk))
    {q : Q} {rets : List (Option (Nat × Nat))} (hr : run o cs (init junk) = some (q, rets))
    (start stop : Nat) (hss : start < stop) :
    (∀ r, overlaps o q start stop = some r → ∃ e ∈ waiting q, e.addr < stop ∧
      start < e.addr + e.size ∧ r = (e.addr + (if e.rz then o.redzone else 0),
        e.addr + e.size - (if e.rz then o.redzone else 0))) ∧
    (overlaps o q start stop = none → ∀ e ∈ waiting q, ∀ a, start ≤ a → a < stop →
      ¬ (e.addr ≤ a ∧ a < e.addr + e.size)) := by
  obtain ⟨q1, rets1, h1, k, hE⟩ := run_K cs hc.K ha (.inr ⟨hs, by simp⟩)
  rw [hr, Option.some.injEq] at h1
  obtain ⟨rfl, rfl⟩ := Prod.mk.inj h1
  have hE := hE ⟨hs, by simp⟩
  obtain ⟨o1, o2⟩ := RB.C15_overlaps start stop hss k.ti.val
  have hd : o.delay ≠ 0 := by have := hc.on; omega
  have hfind : ∀ n ∈ RB.toList q.tree, ∃ e ∈ waiting q, e.addr = n.base ∧ e.size = n.size ∧
      q.at n.client = e := by
    intro n hn
    obtain ⟨e, he, e1, e2⟩ := (k.tree n.base n.size).1 ⟨n.client, hn⟩
    have hw := hE e he
    obtain ⟨i, hi, hat⟩ := waiting_slot k.si hw
    have h0 : e.addr ≠ 0 := (mem_live.1 hw).2
    have hin := k.ti.idx i hi (fun h => h) (by rw [hat]; exact h0)
    rw [hat, e1, e2] at hin
    have : n = ⟨n.base, n.size, i⟩ := by
      by_contra hne
      refine k.ti.val.disj _ hn _ hin hne ⟨n.base, ⟨Nat.le_refl _, ?_⟩, ⟨Nat.le_refl _, ?_⟩⟩
      · have := (k.ti.val.good _ hn).1; omega
      · have := (k.ti.val.good _ hin).1; dsimp only at this ⊢; omega
    refine ⟨e, hw, e1, e2, ?_⟩
    rw [this]
    exact hat
  unfold overlaps
  rw [if_neg hd]
  constructor
  · intro r
    cases hn : RB.overlapsNode start stop q.tree with
    | none => intro h; cases h
    | some n =>
      dsimp only
      intro h
      obtain ⟨hm, a, a1, a2, a3⟩ := o1 n hn
      obtain ⟨e, he, e1, e2, e3⟩ := hfind n hm
      unfold RB.Covers at a3
      refine ⟨e, he, by omega, by omega, ?_⟩
      rw [e3] at h
      rw [e1, e2]
      exact (Option.some.inj h).symm
  · cases hn : RB.overlapsNode start stop q.tree with
    | some n => intro h; cases h
    | none =>
      intro _ e he a a1 a2 hcv
      obtain ⟨c, hc⟩ := (k.tree e.addr e.size).2 ⟨e, k.sub e he, rfl, rfl⟩
      exact o2 hn _ hc a a1 a2 hcv

/-- Two blocks share no byte. -/
def Apart (a b : Ent) : Prop := a.addr + a.size ≤ b.addr ∨ b.addr + b.size ≤ a.addr

theorem ledger_sub (o : Opts) (L : List Ent) (c : Call) (r : Option (Nat × Nat)) :
    ∀ e ∈ ledger o L c r, e ∈ L ∨ e ∈ freed o [c] := by
  intro e he
  cases c with
  | destroy h => exact .inl (List.mem_filter.1 he).1
  | free m aux =>
    rcases r with _ | ⟨a, b⟩
    · exact .inl he
    · simp only [ledger] at he
      split at he
      · exact .inl he
      · rcases List.mem_append.1 he with h | h
        · exact .inl (List.mem_filter.1 h).1
        · exact .inr h

/-- `AppOk` holds in particular if the blocks freed share no bytes at all. -/
theorem appOk_apart {o : Opts} : ∀ (cs : List Call) (q : Q) (L : List Ent),
    (∀ e ∈ freed o cs, e.addr ≠ 0 ∧ 0 < e.size ∧ e.addr + e.size < 2 ^ 64) →
    (freed o cs).Pairwise Apart → (∀ e ∈ freed o cs, ∀ x ∈ L, Apart e x) → AppOk o cs q L := by
  intro cs
  induction cs with
  | nil => intros; trivial
  | cons c cs ih =>
    intro q L h1 h2 h3
    cases c with
    | destroy h =>
      intro r _
      exact ih r.1 _ h1 h2 fun e he x hx => by
        rcases ledger_sub o L _ _ x hx with h | h
        · exact h3 e he x h
        · cases h
    | free m aux =>
      have hf : freed o (.free m aux :: cs) = ent o m aux :: freed o cs := rfl
      rw [hf] at h1 h2 h3
      rw [List.pairwise_cons] at h2
      obtain ⟨a1, a2, a3⟩ := h1 _ List.mem_cons_self
      refine ⟨⟨a1, a2, a3, fun e he => h3 _ List.mem_cons_self e he⟩, ?_⟩
      intro r _
      refine ih r.1 _ (fun e he => h1 e (List.mem_cons_of_mem _ he)) h2.2 ?_
      intro e he x hx
      rcases ledger_sub o L _ _ x hx with h | h
      · exact h3 e (List.mem_cons_of_mem _ he) x h
      · rw [List.mem_singleton.1 h]
        exact (h2.1 e he).symm

/-! ## Destroyed heaps -/

theorem run_append (o : Opts) (cs ds : List Call) (q : Q) : run o (cs ++ ds) q =
    (run o cs q).bind fun r => (run o ds r.1).map fun z => (z.1, r.2 ++ z.2) := by
  induction cs generalizing q with
  | nil => simp [run]
  | cons c cs ih =>
    simp only [List.cons_append, run]
    cases h : step o c q with
    | none => rfl
    | some r =>
      simp only [Option.bind_some, ih]
      cases h2 : run o cs r.1 with
      | none => rfl
      | some z =>
        simp only [Option.bind_some, Option.map_some]
        cases run o ds z.1 <;> simp

theorem run_sub {o : Opts} : ∀ (cs : List Call) {q : Q}, SI o q → ∀ {r}, run o cs q = some r →
    SI o r.1 ∧ r.2.length = cs.length ∧ ∀ e ∈ waiting r.1, e ∈ waiting q ∨ e ∈ freed o cs := by
  intro cs
  induction cs with
  | nil =>
    intro q h r hr
    simp only [run, Option.some.injEq] at hr
    rw [← hr]
    exact ⟨h, rfl, fun e he => .inl he⟩
  | cons c cs ih =>
    intro q h r hr
    cases c with
    | free m aux =>
      obtain ⟨q1, ret, h1, h2, st⟩ := handleFree_step h m aux
      simp only [run, step, h1, Option.map_some, Option.bind_some] at hr
      obtain ⟨z, hz, rfl⟩ := Option.map_eq_some_iff.1 hr
      obtain ⟨s1, s2, s3⟩ := ih h2 hz
      refine ⟨s1, by simp [s2], fun e he => ?_⟩
      rcases s3 e he with h | h
      · rcases st.sub e h with h | h
        · exact .inl h
        · right; rw [h]; exact List.mem_cons_self
      · exact .inr (List.mem_cons_of_mem _ h)
    | destroy heap =>
      obtain ⟨q1, h1, h2, h3, -⟩ := heapDestroy_spec h heap
      simp only [run, step, h1, Option.map_some, Option.bind_some] at hr
      obtain ⟨z, hz, rfl⟩ := Option.map_eq_some_iff.1 hr
      obtain ⟨s1, s2, s3⟩ := ih h2 hz
      refine ⟨s1, by simp [s2], fun e he => ?_⟩
      rcases s3 e he with h | h
      · left
        unfold waiting at h
        rw [h3, live_kill] at h
        exact (List.mem_filter.1 h).1
      · exact .inr h

/-- After a heap has been destroyed, no call passes on a block that was freed in that heap before
(its memory is gone): every address passed on later is that of a block of another heap or of a
block freed after the destruction. -/
theorem C27_destroyed {o : Opts} {junk : List Ent} (hc : Conf o junk) (cs ds : List Call)
    (heap : Nat) (hp : Proper o (cs ++ .destroy heap :: ds)) :
    ∃ q rets, run o (cs ++ .destroy heap :: ds) (init junk) = some (q, rets) ∧
      ∀ a ∈ passed (rets.drop (cs.length + 1)),
        (∃ e ∈ freed o cs, e.addr = a ∧ e.aux ≠ heap) ∨ ∃ e ∈ freed o ds, e.addr = a := by
  have hf : freed o (cs ++ .destroy heap :: ds) = freed o cs ++ freed o ds := by
    induction cs with
    | nil => rfl
    | cons c cs ih =>
      cases c with
      | free m aux =>
        rw [List.cons_append]
        simp only [freed, List.cons_append]
        rw [ih (fun e he => hp e (by rw [List.cons_append]; exact List.mem_cons_of_mem _ he))]
      | destroy x => exact ih hp
  obtain ⟨q1, rets1, h1, hs1, -⟩ := run_perm cs hc.si (fun e he => hp e (by rw [hf]; simp [he]))
  obtain ⟨-, hlen, hsub⟩ := run_sub cs hc.si h1
  obtain ⟨q2, h2, hs2, hr2, -⟩ := heapDestroy_spec hs1 heap
  obtain ⟨q3, rets3, h3, -, lost, hperm, -⟩ :=
    run_perm ds hs2 (fun e he => hp e (by rw [hf]; simp [he]))
  refine ⟨q3, rets1 ++ none :: rets3, ?_, ?_⟩
  · rw [run_append, h1, Option.bind_some]
    simp only [run, step, h2, Option.map_some, Option.bind_some, h3]
  · intro a ha
    dsimp only at hlen hsub
    have hdrop : (rets1 ++ none :: rets3).drop (cs.length + 1) = rets3 := by
      rw [← hlen, List.drop_append, List.drop_eq_nil_of_le (by omega)]
      simp
    rw [hdrop] at ha
    have := hperm.subset (List.mem_append_left _ (List.mem_append_left _ ha))
    rcases List.mem_append.1 this with h | h
    · left
      obtain ⟨e, he, hea⟩ := List.mem_map.1 h
      rw [hr2, live_kill, List.mem_filter] at he
      rcases hsub e he.1 with h | h
      · unfold waiting at h
        rw [ring_init] at h
        simp [live] at h
      · exact ⟨e, h, hea, of_decide_eq_true he.2⟩
    · right
      obtain ⟨e, he, hea⟩ := List.mem_map.1 h
      exact ⟨e, he, hea⟩

/-! ## Concrete runs, and what goes wrong in the excluded cases -/

/-- A small configuration for the examples: two slots, 100 bytes, redzones of 16 bytes. -/
def cfg : Opts := ⟨2, 100, 16, true⟩

/-- A block without redzone, in heap `aux`. -/
def blk (a s aux : Nat) : Call := .free ⟨a, s, false⟩ aux

/-- The uninitialised array. -/
def junk2 : List Ent := [⟨77, 5, 5, true⟩, ⟨0, 1, 2, false⟩]

theorem cfg_conf : Conf cfg junk2 := ⟨by decide, by decide, rfl⟩

/-- What a run passes on, what waits afterwards, the byte count and the assertion flag. -/
def outcome (cs : List Call) : Option (List (Option (Nat × Nat)) × List Ent × Nat × Bool) :=
  (run cfg cs (init junk2)).map fun r => (r.2, waiting r.1, r.1.bytes, r.1.bad)

-- Three blocks that fit: NULL, NULL, then the oldest.
example : outcome [blk 1000 30 7, blk 2000 30 8, blk 3000 40 9] =
    some ([some (0, 7), some (0, 8), some (1000, 7)],
      [⟨2000, 30, 8, false⟩, ⟨3000, 40, 9, false⟩], 70, false) := by decide +kernel

example : Windows cfg (freed cfg [blk 1000 30 7, blk 2000 30 8, blk 3000 40 9]) ∧
    Proper cfg [blk 1000 30 7, blk 2000 30 8, blk 3000 40 9] := by
  refine ⟨?_, ?_⟩
  · intro j
    rcases j with _ | _ | _ | j
    · decide +kernel
    · decide +kernel
    · decide +kernel
    · have : freed cfg [blk 1000 30 7, blk 2000 30 8, blk 3000 40 9] =
        [⟨1000, 30, 7, false⟩, ⟨2000, 30, 8, false⟩, ⟨3000, 40, 9, false⟩] := by decide +kernel
      rw [this]
      simp [bytes]
  · unfold Proper; decide +kernel

-- Equal sizes over the byte limit: the oldest leaves early and nothing is lost.
example : outcome [blk 1000 60 7, blk 2000 60 7, blk 3000 60 7] =
    some ([some (0, 7), some (1000, 7), some (2000, 7)], [⟨3000, 60, 7, false⟩], 60, false) := by
  decide +kernel

/-- **The code loses blocks.**  A 40-byte block meets a full queue holding 20 and 50 bytes with a
limit of 100: the 50-byte block is passed on, but the new block is stored over the 20-byte one,
which is never passed on and never waits again; the byte count keeps its 20 bytes. -/
theorem C27_lost : outcome [blk 1000 20 7, blk 2000 50 7, blk 3000 40 7] =
    some ([some (0, 7), some (0, 7), some (2000, 7)], [⟨3000, 40, 7, false⟩], 60, false) := by
  decide +kernel

/-- The lost block stays in the tree: the overlap query still reports it. -/
theorem C27_lost_stale :
    (run cfg [blk 1000 20 7, blk 2000 50 7, blk 3000 40 7] (init junk2)).map
      (fun r => overlaps cfg r.1 1000 1001) = some (some (1000, 1020)) := by decide +kernel

/-- Bytes of a destroyed heap stay in the byte count, so that later blocks are passed on at once
although nothing waits. -/
theorem C27_bytes_after_destroy : outcome [blk 1000 60 7, .destroy 7, blk 2000 50 8] =
    some ([some (0, 7), none, some (2000, 8)], [], 60, false) := by decide +kernel

/-- When the byte limit is hit and the queue is not full, the old block of heap 7 is passed on with
the heap handle of the call, 8: `HeapFree` is then called with the wrong heap. -/
theorem C27_wrong_heap : outcome [blk 1000 60 7, blk 2000 50 8] =
    some ([some (0, 7), some (1000, 8)], [⟨2000, 50, 8, false⟩], 50, false) := by decide +kernel

/-- The search for a block to give up does not wrap around: with the oldest entry in the last slot,
a larger younger block is not found and the new block is passed on at once. -/
theorem C27_no_wrap : outcome [blk 1000 10 7, blk 2000 20 7, blk 3000 60 7, blk 4000 30 7] =
    some ([some (0, 7), some (0, 7), some (1000, 7), some (4000, 7)],
      [⟨2000, 20, 7, false⟩, ⟨3000, 60, 7, false⟩], 80, false) := by decide +kernel

-- A destroyed heap: its block is not passed on any more.
example : outcome [blk 1000 10 7, blk 2000 10 8, .destroy 7, blk 3000 10 8, blk 4000 10 8] =
    some ([some (0, 7), some (0, 8), none, some (0, 7), some (2000, 8)],
      [⟨3000, 10, 8, false⟩, ⟨4000, 10, 8, false⟩], 30, false) := by decide +kernel

-- The hypotheses of the assertion and overlap theorems hold for these calls.
example : AppOk cfg [blk 1000 30 7, blk 2000 30 8, .destroy 7, blk 3000 40 9] (init junk2) [] := by
  apply appOk_apart
  · decide +kernel
  · have : freed cfg [blk 1000 30 7, blk 2000 30 8, .destroy 7, blk 3000 40 9] =
        [⟨1000, 30, 7, false⟩, ⟨2000, 30, 8, false⟩, ⟨3000, 40, 9, false⟩] := by decide +kernel
    rw [this]
    simp [Apart]
  · simp

example : NoSqueeze cfg [blk 1000 60 7, blk 2000 60 7, blk 3000 60 7] (init junk2) := by
  refine noSqueeze_same 60 _ cfg_conf.si (by simp [NoDestroy, blk]) ?_ (by decide +kernel)
  rw [ring_init]
  simp [live]

-- The overlap query reports the bounds without redzones.
example : (run cfg [.free ⟨1016, 24, true⟩ 7] (init junk2)).map
    (fun r => (overlaps cfg r.1 1040 1044, overlaps cfg r.1 1056 1060)) =
    some (some (1016, 1040), none) := by decide +kernel

end Verif.DelayFree
