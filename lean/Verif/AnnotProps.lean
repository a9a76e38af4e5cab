import Verif.Annot

/-!
# C85: requests of the application mark what they name and nothing else
-/
namespace Verif.Annot

open Verif.Umbra Verif.Shadow

/-! ## What a request means

The states of `Shadow.st`: 0 defined, 1 unaddressable, 2 defined bit by bit, 3 undefined. -/

/-- The bytes `[a, a+n)`. -/
def In (a n x : Nat) : Prop := a ≤ x ∧ x < a + n

/-- A range inside the address space (for the second request, below its last bytes: see
`C85_wraps`). -/
def Fits : Req → Prop
  | .defIfAddr a n => a + n ≤ 2 ^ 64
  | .unaddr a n => a + n < 2 ^ 64 ∧ a + 3 < 2 ^ 64
  | .leakCheck => True

/-- Some request asked for `x` to be unaddressable. -/
def AskedUnaddr (rs : List Req) (x : Nat) : Prop := ∃ a n, Req.unaddr a n ∈ rs ∧ In a n x

/-- Some request asked for `x` to be defined. -/
def AskedDefined (rs : List Req) (x : Nat) : Prop := ∃ a n, Req.defIfAddr a n ∈ rs ∧ In a n x

/-- How the states after the requests `rs` follow from those before them. -/
def Follows (rs : List Req) (before after : Nat → Nat) : Prop :=
  ∀ x, (before x = 1 ∨ AskedUnaddr rs x → after x = 1) ∧
    (before x ≠ 1 → ¬ AskedUnaddr rs x → AskedDefined rs x → after x = 0) ∧
    (¬ AskedUnaddr rs x → ¬ AskedDefined rs x → after x = before x)

/-- The same when undefined values are not looked for: only the second request acts. -/
def FollowsAddr (rs : List Req) (before after : Nat → Nat) : Prop :=
  ∀ x, (AskedUnaddr rs x → after x = 1) ∧ (¬ AskedUnaddr rs x → after x = before x)

/-- What a request returns to the application. -/
def answer : Req → Nat
  | .leakCheck => 0
  | _ => 1

/-! ## Lemmas -/

theorem handleDefined_ok {o : Opts} (h1 : o.shadowing = true) (h2 : o.checkUninit = true) (s : St)
    {a n : Nat} (hf : a + n ≤ 2 ^ 64) :
    ∃ s', handleDefined o s a n = .ok (s', 1) ∧
      ∀ x, st s' x = if a ≤ x ∧ x < a + n ∧ st s x ≠ 1 then 0 else st s x := by
  obtain ⟨s', i, e, h⟩ := C09_set_non_matching (val := DEFINED) (valNot := UNADDRESSABLE)
    (by decide) n a s none (infoOk_none s) hf
  refine ⟨s', ?_, h⟩
  unfold handleDefined
  rw [h1, h2, if_neg (by decide), e]
  rfl

theorem handleUnaddr_ok {o : Opts} (h1 : o.shadowing = true) (s : St)
    {a n : Nat} (hf : a + n < 2 ^ 64) (hs : a + 3 < 2 ^ 64) :
    ∃ s', handleUnaddr o s a n = .ok (s', 1) ∧
      ∀ x, st s' x = if a ≤ x ∧ x < a + n then 1 else st s x := by
  obtain ⟨s', e, h⟩ := C09_set_range s (start := a) (stop := a + n) (v := UNADDRESSABLE)
    (by decide) hf hs
  refine ⟨s', ?_, h⟩
  unfold handleUnaddr
  rw [h1, if_neg (by decide), Nat.mod_eq_of_lt (show a + n < top from hf), e]
  rfl

theorem asked_cons_unaddr {r : Req} {rs : List Req} {x : Nat} :
    AskedUnaddr (r :: rs) x ↔ AskedUnaddr [r] x ∨ AskedUnaddr rs x := by
  unfold AskedUnaddr
  constructor
  · rintro ⟨a, n, hm, hi⟩
    rcases List.mem_cons.1 hm with h | h
    · exact .inl ⟨a, n, List.mem_cons.2 (.inl h), hi⟩
    · exact .inr ⟨a, n, h, hi⟩
  · rintro (⟨a, n, hm, hi⟩ | ⟨a, n, hm, hi⟩)
    · exact ⟨a, n, List.mem_cons.2 (.inl (List.mem_singleton.1 hm)), hi⟩
    · exact ⟨a, n, List.mem_cons.2 (.inr hm), hi⟩

theorem asked_cons_defined {r : Req} {rs : List Req} {x : Nat} :
    AskedDefined (r :: rs) x ↔ AskedDefined [r] x ∨ AskedDefined rs x := by
  unfold AskedDefined
  constructor
  · rintro ⟨a, n, hm, hi⟩
    rcases List.mem_cons.1 hm with h | h
    · exact .inl ⟨a, n, List.mem_cons.2 (.inl h), hi⟩
    · exact .inr ⟨a, n, h, hi⟩
  · rintro (⟨a, n, hm, hi⟩ | ⟨a, n, hm, hi⟩)
    · exact ⟨a, n, List.mem_cons.2 (.inl (List.mem_singleton.1 hm)), hi⟩
    · exact ⟨a, n, List.mem_cons.2 (.inr hm), hi⟩

theorem unaddr_one {a n x : Nat} : AskedUnaddr [.unaddr a n] x ↔ In a n x := by
  constructor
  · rintro ⟨a', n', hm, hi⟩
    cases List.mem_singleton.1 hm
    exact hi
  · exact fun h => ⟨a, n, List.mem_singleton.2 rfl, h⟩

theorem defined_one {a n x : Nat} : AskedDefined [.defIfAddr a n] x ↔ In a n x := by
  constructor
  · rintro ⟨a', n', hm, hi⟩
    cases List.mem_singleton.1 hm
    exact hi
  · exact fun h => ⟨a, n, List.mem_singleton.2 rfl, h⟩

theorem not_unaddr_def {a n x : Nat} : ¬ AskedUnaddr [.defIfAddr a n] x := by
  rintro ⟨a', n', hm, -⟩
  cases List.mem_singleton.1 hm

theorem not_def_unaddr {a n x : Nat} : ¬ AskedDefined [.unaddr a n] x := by
  rintro ⟨a', n', hm, -⟩
  cases List.mem_singleton.1 hm

theorem not_unaddr_leak {x : Nat} : ¬ AskedUnaddr [.leakCheck] x := by
  rintro ⟨a', n', hm, -⟩
  cases List.mem_singleton.1 hm

theorem not_def_leak {x : Nat} : ¬ AskedDefined [.leakCheck] x := by
  rintro ⟨a', n', hm, -⟩
  cases List.mem_singleton.1 hm

theorem not_unaddr_nil {x : Nat} : ¬ AskedUnaddr [] x := by
  rintro ⟨a', n', hm, -⟩
  cases hm

theorem not_def_nil {x : Nat} : ¬ AskedDefined [] x := by
  rintro ⟨a', n', hm, -⟩
  cases hm

theorem follows_cons {r : Req} {rs : List Req} {f g h : Nat → Nat} (h1 : Follows [r] f g)
    (h2 : Follows rs g h) : Follows (r :: rs) f h := by
  intro x
  obtain ⟨a1, a2, a3⟩ := h1 x
  obtain ⟨b1, b2, b3⟩ := h2 x
  refine ⟨fun hu => ?_, fun hf hu hd => ?_, fun hu hd => ?_⟩
  · rcases hu with hu | hu
    · exact b1 (.inl (a1 (.inl hu)))
    · rcases asked_cons_unaddr.1 hu with hu | hu
      · exact b1 (.inl (a1 (.inr hu)))
      · exact b1 (.inr hu)
  · have hu1 : ¬ AskedUnaddr [r] x := fun hh => hu (asked_cons_unaddr.2 (.inl hh))
    have hu2 : ¬ AskedUnaddr rs x := fun hh => hu (asked_cons_unaddr.2 (.inr hh))
    by_cases hd1 : AskedDefined [r] x
    · have e := a2 hf hu1 hd1
      by_cases hd2 : AskedDefined rs x
      · exact b2 (by omega) hu2 hd2
      · rw [b3 hu2 hd2, e]
    · have e := a3 hu1 hd1
      rcases asked_cons_defined.1 hd with hd | hd
      · exact absurd hd hd1
      · exact b2 (by omega) hu2 hd
  · have hu1 : ¬ AskedUnaddr [r] x := fun hh => hu (asked_cons_unaddr.2 (.inl hh))
    have hu2 : ¬ AskedUnaddr rs x := fun hh => hu (asked_cons_unaddr.2 (.inr hh))
    have hd1 : ¬ AskedDefined [r] x := fun hh => hd (asked_cons_defined.2 (.inl hh))
    have hd2 : ¬ AskedDefined rs x := fun hh => hd (asked_cons_defined.2 (.inr hh))
    rw [b3 hu2 hd2, a3 hu1 hd1]

theorem followsAddr_cons {r : Req} {rs : List Req} {f g h : Nat → Nat} (h1 : FollowsAddr [r] f g)
    (h2 : FollowsAddr rs g h) : FollowsAddr (r :: rs) f h := by
  intro x
  obtain ⟨a1, a2⟩ := h1 x
  obtain ⟨b1, b2⟩ := h2 x
  refine ⟨fun hu => ?_, fun hu => ?_⟩
  · by_cases hu2 : AskedUnaddr rs x
    · exact b1 hu2
    · rcases asked_cons_unaddr.1 hu with hu | hu
      · rw [b2 hu2, a1 hu]
      · exact absurd hu hu2
  · rw [b2 fun hh => hu (asked_cons_unaddr.2 (.inr hh)),
      a2 fun hh => hu (asked_cons_unaddr.2 (.inl hh))]

theorem step_ok {o : Opts} (h1 : o.shadowing = true) (h2 : o.checkUninit = true) (w : World)
    {r : Req} (hf : Fits r) :
    ∃ w', step o w r = .ok w' ∧ Follows [r] (st w.sh) (st w'.sh) ∧
      w'.scans = w.scans + (if r = .leakCheck then 1 else 0) ∧ w'.rets = answer r :: w.rets := by
  cases r with
  | defIfAddr a n =>
    obtain ⟨s', e, h⟩ := handleDefined_ok h1 h2 w.sh hf
    refine ⟨⟨s', w.scans, 1 :: w.rets⟩, ?_, fun x => ?_, rfl, rfl⟩
    · simp only [step]; rw [e]; rfl
    · have hx := h x
      refine ⟨fun hu => ?_, fun hb _ hd => ?_, fun _ hd => ?_⟩
      · rcases hu with hu | hu
        · rw [if_neg fun hh => hh.2.2 hu] at hx
          exact hx.trans hu
        · exact absurd hu not_unaddr_def
      · rw [if_pos ⟨(defined_one.1 hd).1, (defined_one.1 hd).2, hb⟩] at hx
        exact hx
      · rw [if_neg fun hh => hd (defined_one.2 ⟨hh.1, hh.2.1⟩)] at hx
        exact hx
  | unaddr a n =>
    obtain ⟨s', e, h⟩ := handleUnaddr_ok h1 w.sh hf.1 hf.2
    refine ⟨⟨s', w.scans, 1 :: w.rets⟩, ?_, fun x => ?_, rfl, rfl⟩
    · simp only [step]; rw [e]; rfl
    · have hx := h x
      refine ⟨fun hu => ?_, fun _ _ hd => absurd hd not_def_unaddr, fun hu _ => ?_⟩
      · by_cases hi : a ≤ x ∧ x < a + n
        · rw [if_pos hi] at hx
          exact hx
        · rw [if_neg hi] at hx
          rcases hu with hu | hu
          · exact hx.trans hu
          · exact absurd (unaddr_one.1 hu) hi
      · rw [if_neg (show ¬ (a ≤ x ∧ x < a + n) from fun hh => hu (unaddr_one.2 hh))] at hx
        exact hx
  | leakCheck =>
    refine ⟨⟨w.sh, w.scans + 1, 0 :: w.rets⟩, rfl, fun x => ?_, rfl, rfl⟩
    refine ⟨fun hu => ?_, fun _ _ hd => absurd hd not_def_leak, fun _ _ => rfl⟩
    rcases hu with hu | hu
    · exact hu
    · exact absurd hu not_unaddr_leak

/-! ## C85 -/

/-- C85: after any requests, in any order, a byte is unaddressable exactly if it was or if a
request asked for that; of the others those named by a request to make them defined are defined,
and the rest are as before.  Every request gets its answer and every request for a search for
leaks makes one.  Partial: for ranges that do not reach the end of the address space
(`C85_wraps`). -/
theorem C85_requests_partial {o : Opts} (h1 : o.shadowing = true) (h2 : o.checkUninit = true) :
    ∀ (rs : List Req) (w : World), (∀ r ∈ rs, Fits r) →
    ∃ w', run o w rs = .ok w' ∧ Follows rs (st w.sh) (st w'.sh) ∧
      w'.scans = w.scans + rs.count .leakCheck ∧ w'.rets = (rs.map answer).reverse ++ w.rets := by
  intro rs
  induction rs with
  | nil =>
    intro w _
    refine ⟨w, rfl, fun x => ⟨fun hu => ?_, fun _ _ hd => absurd hd not_def_nil, fun _ _ => rfl⟩,
      rfl, rfl⟩
    rcases hu with hu | hu
    · exact hu
    · exact absurd hu not_unaddr_nil
  | cons r rs ih =>
    intro w hf
    obtain ⟨w1, e1, f1, s1, r1⟩ := step_ok h1 h2 w (hf r (List.mem_cons.2 (.inl rfl)))
    obtain ⟨w2, e2, f2, s2, r2⟩ := ih w1 fun q hq => hf q (List.mem_cons.2 (.inr hq))
    refine ⟨w2, ?_, follows_cons f1 f2, ?_, ?_⟩
    · simp only [run]; rw [e1]; exact e2
    · rw [s2, s1, List.count_cons]
      by_cases hr : r = .leakCheck
      · subst hr; simp; omega
      · rw [if_neg hr, if_neg (by simpa using hr)]; omega
    · rw [r2, r1]; simp

/-- C85: the order of the requests and their repetition make no difference to any byte. -/
theorem C85_order {o : Opts} (h1 : o.shadowing = true) (h2 : o.checkUninit = true)
    {rs rs' : List Req} (hm : ∀ r, r ∈ rs ↔ r ∈ rs') (w : World) (hf : ∀ r ∈ rs, Fits r) :
    ∃ w1 w2, run o w rs = .ok w1 ∧ run o w rs' = .ok w2 ∧ ∀ x, st w1.sh x = st w2.sh x := by
  obtain ⟨w1, e1, f1, -⟩ := C85_requests_partial h1 h2 rs w hf
  obtain ⟨w2, e2, f2, -⟩ := C85_requests_partial h1 h2 rs' w fun r hr => hf r ((hm r).2 hr)
  refine ⟨w1, w2, e1, e2, fun x => ?_⟩
  obtain ⟨a1, a2, a3⟩ := f1 x
  obtain ⟨b1, b2, b3⟩ := f2 x
  have hu : AskedUnaddr rs x ↔ AskedUnaddr rs' x :=
    ⟨fun ⟨a, n, h, hi⟩ => ⟨a, n, (hm _).1 h, hi⟩, fun ⟨a, n, h, hi⟩ => ⟨a, n, (hm _).2 h, hi⟩⟩
  have hd : AskedDefined rs x ↔ AskedDefined rs' x :=
    ⟨fun ⟨a, n, h, hi⟩ => ⟨a, n, (hm _).1 h, hi⟩, fun ⟨a, n, h, hi⟩ => ⟨a, n, (hm _).2 h, hi⟩⟩
  by_cases c1 : st w.sh x = 1 ∨ AskedUnaddr rs x
  · rw [a1 c1, b1 (c1.imp id hu.1)]
  · have n1 : st w.sh x ≠ 1 := fun h => c1 (.inl h)
    have n2 : ¬ AskedUnaddr rs x := fun h => c1 (.inr h)
    by_cases c2 : AskedDefined rs x
    · rw [a2 n1 n2 c2, b2 n1 (fun h => n2 (hu.2 h)) (hd.1 c2)]
    · rw [a3 n2 c2, b3 (fun h => n2 (hu.2 h)) fun h => c2 (hd.2 h)]

/-- C85: a buffer without unaddressable bytes passes the check for undefined values once the
application has asked for it to be defined, whatever was requested before; with an unaddressable
byte in it, it does not pass because of the request. -/
theorem C85_accepted {o : Opts} (h1 : o.shadowing = true) (h2 : o.checkUninit = true)
    (rs : List Req) (w : World) (hf : ∀ r ∈ rs, Fits r) {a n : Nat}
    (hm : Req.defIfAddr a n ∈ rs) (wantEnd : Bool) :
    ∃ w' c, run o w rs = .ok w' ∧ checkRange w'.sh a n DEFINED wantEnd = some c ∧
      ((∀ x, In a n x → st w.sh x ≠ 1 ∧ ¬ AskedUnaddr rs x) → c.res = true) ∧
      (∀ x, c.res = false → c.badStart = some x →
        In a n x ∧ (st w.sh x = 1 ∨ AskedUnaddr rs x)) := by
  obtain ⟨w', e, f, -⟩ := C85_requests_partial h1 h2 rs w hf
  obtain ⟨c, hc, hb⟩ := C10_sound w'.sh a n DEFINED wantEnd
  have key : ∀ x, c.res = false → c.badStart = some x →
      In a n x ∧ (st w.sh x = 1 ∨ AskedUnaddr rs x) := by
    intro x hr hx
    obtain ⟨b, v, q1, -, q3, q4, q5, q6, -⟩ := hb hr
    rw [q1] at hx
    cases hx
    refine ⟨⟨q3, q4⟩, Classical.byContradiction fun hn => q6 ?_⟩
    have h0 := (f x).2.1 (fun h => hn (.inl h)) (fun h => hn (.inr h)) ⟨a, n, hm, q3, q4⟩
    apply UInt32.toNat_inj.1
    rw [q5, h0]
    rfl
  refine ⟨w', c, e, hc, fun hall => ?_, key⟩
  cases hr : c.res with
  | true => rfl
  | false =>
    obtain ⟨b, v, q1, -⟩ := hb hr
    obtain ⟨k1, k2⟩ := key b hr q1
    rcases k2 with k2 | k2
    · exact absurd k2 (hall b k1).1
    · exact absurd k2 (hall b k1).2

/-- C85: when undefined values are not looked for, the first request does nothing and the second
acts as before. -/
theorem C85_no_uninit {o : Opts} (h1 : o.shadowing = true) (h2 : o.checkUninit = false) :
    ∀ (rs : List Req) (w : World), (∀ r ∈ rs, Fits r) →
    ∃ w', run o w rs = .ok w' ∧ FollowsAddr rs (st w.sh) (st w'.sh) := by
  intro rs
  induction rs with
  | nil => exact fun w _ => ⟨w, rfl, fun x => ⟨fun h => absurd h not_unaddr_nil, fun _ => rfl⟩⟩
  | cons r rs ih =>
    intro w hf
    have hr := hf r (List.mem_cons.2 (.inl rfl))
    have h : ∃ w1, step o w r = .ok w1 ∧ FollowsAddr [r] (st w.sh) (st w1.sh) := by
      cases r with
      | defIfAddr a n =>
        refine ⟨⟨w.sh, w.scans, 1 :: w.rets⟩, ?_,
          fun x => ⟨fun h => absurd h not_unaddr_def, fun _ => rfl⟩⟩
        simp only [step, handleDefined]
        rw [h1, h2, if_pos (by decide)]
        rfl
      | unaddr a n =>
        obtain ⟨s', e, h⟩ := handleUnaddr_ok h1 w.sh hr.1 hr.2
        refine ⟨⟨s', w.scans, 1 :: w.rets⟩, ?_, fun x => ⟨fun hu => ?_, fun hu => ?_⟩⟩
        · simp only [step]; rw [e]; rfl
        · have hx := h x
          rw [if_pos (show a ≤ x ∧ x < a + n from unaddr_one.1 hu)] at hx
          exact hx
        · have hx := h x
          rw [if_neg (show ¬ (a ≤ x ∧ x < a + n) from fun hh => hu (unaddr_one.2 hh))] at hx
          exact hx
      | leakCheck => exact ⟨_, rfl, fun x => ⟨fun h => absurd h not_unaddr_leak, fun _ => rfl⟩⟩
    obtain ⟨w1, e1, f1⟩ := h
    obtain ⟨w2, e2, f2⟩ := ih w1 fun q hq => hf q (List.mem_cons.2 (.inr hq))
    refine ⟨w2, ?_, followsAddr_cons f1 f2⟩
    simp only [run]; rw [e1]; exact e2

/-- C85: without shadow memory no request touches it, whatever its range, and all are answered. -/
theorem C85_no_shadow {o : Opts} (h1 : o.shadowing = false) :
    ∀ (rs : List Req) (w : World), ∃ w', run o w rs = .ok w' ∧ w'.sh = w.sh ∧
      w'.rets = (rs.map answer).reverse ++ w.rets := by
  intro rs
  induction rs with
  | nil => exact fun w => ⟨w, rfl, rfl, rfl⟩
  | cons r rs ih =>
    intro w
    have h : ∃ w1, step o w r = .ok w1 ∧ w1.sh = w.sh ∧ w1.rets = answer r :: w.rets := by
      cases r with
      | defIfAddr a n =>
        refine ⟨⟨w.sh, w.scans, 1 :: w.rets⟩, ?_, rfl, rfl⟩
        simp only [step, handleDefined]
        rw [h1, if_pos (by simp)]
        rfl
      | unaddr a n =>
        refine ⟨⟨w.sh, w.scans, 1 :: w.rets⟩, ?_, rfl, rfl⟩
        simp only [step, handleUnaddr]
        rw [h1, if_pos (by decide)]
        rfl
      | leakCheck => exact ⟨_, rfl, rfl, rfl⟩
    obtain ⟨w1, e1, s1, r1⟩ := h
    obtain ⟨w2, e2, s2, r2⟩ := ih w1
    refine ⟨w2, ?_, s2.trans s1, ?_⟩
    · simp only [run]; rw [e1]; exact e2
    · rw [r2, r1]; simp

/-- C85 fails at the end of the address space: if the range reaches it, its end wraps to an
address that is not above its start, nothing is marked, and the request is answered as if it
were. -/
theorem C85_wraps (o : Opts) (s : St) {a n : Nat} (ha : a < 2 ^ 64) (hn : n ≤ 2 ^ 64)
    (hw : 2 ^ 64 ≤ a + n) : handleUnaddr o s a n = .ok (s, 1) := by
  unfold handleUnaddr
  cases h : o.shadowing with
  | false => rfl
  | true =>
    rw [if_neg (by decide)]
    have e : (a + n) % top = a + n - top := by
      have ht : top = 2 ^ 64 := rfl
      rw [Nat.mod_eq_sub_mod (by rw [ht]; exact hw), Nat.mod_eq_of_lt (by rw [ht]; omega)]
    have hle : a ≥ (a + n) % top := by
      have ht : top = 2 ^ 64 := rfl
      rw [e, ht]; omega
    unfold Shadow.setRange
    rw [if_pos hle]
    rfl

/-! ## The hypotheses can be met -/

/-- Requests that overlap. -/
def demoReqs : List Req :=
  [.defIfAddr 0x1000 0x20, .unaddr 0x1010 8, .leakCheck, .defIfAddr 0x1008 0x10]

example : ∀ r ∈ demoReqs, Fits r := by
  intro r hr
  simp only [demoReqs, List.mem_cons, List.not_mem_nil, or_false] at hr
  rcases hr with h | h | h | h <;> subst h <;> simp [Fits]

example : AskedUnaddr demoReqs 0x1013 ∧ AskedDefined demoReqs 0x1013 :=
  ⟨⟨0x1010, 8, by decide, by decide, by decide⟩, ⟨0x1000, 0x20, by decide, by decide, by decide⟩⟩

example : Req.defIfAddr 0x1008 0x10 ∈ demoReqs := by decide

example : 0xfffffffffffff000 < 2 ^ 64 ∧ 0x1000 ≤ 2 ^ 64 ∧ 2 ^ 64 ≤ 0xfffffffffffff000 + 0x1000 := by
  decide

end Verif.Annot
