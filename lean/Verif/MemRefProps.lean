import Verif.MemRef

/-!
# What the check of a memory reference reports

The specification: the bad bytes of a reference are split into the longest ranges of
one kind, and these are the reports, in ascending order.
-/

namespace Verif.MemRef

open Verif.Define (Sh)

/-! ## Specification -/

/-- What is wrong with the byte at `a`: any reference but a push needs an addressable
byte, and a read that checks definedness needs a defined one, except where an
exception applies. -/
def wrong (f : Flags) (c : Conf) (sh : Nat → Sh) (a : Nat) : Option Kind :=
  match sh a with
  | .unaddr => if (f.pushpop ∧ f.write) ∨ c.unaddrExc a then none else some .unaddr
  | .undef => if ¬ f.write ∧ ¬ f.checkAddr ∧ f.checkDef ∧ ¬ c.undefExc a then some .undef
      else none
  | _ => none

/-- The reports `R` are the longest ranges of one kind in `[lo, hi)`, ascending. -/
structure Runs (K : Nat → Option Kind) (lo hi : Nat) (R : List Report) : Prop where
  pos : ∀ r ∈ R, 0 < r.size
  inside : ∀ r ∈ R, lo ≤ r.start ∧ r.start + r.size ≤ hi
  bytes : ∀ r ∈ R, ∀ b, r.start ≤ b → b < r.start + r.size → K b = some r.kind
  left : ∀ r ∈ R, r.start = lo ∨ K (r.start - 1) ≠ some r.kind
  right : ∀ r ∈ R, r.start + r.size = hi ∨ K (r.start + r.size) ≠ some r.kind
  cover : ∀ b k, lo ≤ b → b < hi → K b = some k →
    ∃ r ∈ R, r.kind = k ∧ r.start ≤ b ∧ b < r.start + r.size
  sorted : R.Pairwise fun a b => a.start + a.size ≤ b.start

theorem Runs.nil {K : Nat → Option Kind} {lo hi : Nat} {R : List Report} (h : Runs K lo hi R) :
    R = [] ↔ ∀ b, lo ≤ b → b < hi → K b = none := by
  constructor
  · rintro rfl b h1 h2
    cases hk : K b with
    | none => rfl
    | some k =>
      obtain ⟨r, hr, _⟩ := h.cover b k h1 h2 hk
      cases hr
  · intro hn
    cases R with
    | nil => rfl
    | cons r R =>
      have hp := h.pos r (List.mem_cons_self ..)
      have hi := h.inside r (List.mem_cons_self ..)
      have := h.bytes r (List.mem_cons_self ..) r.start (Nat.le_refl _) (by omega)
      rw [hn r.start hi.1 (by omega)] at this
      cases this

theorem Runs.mem {K : Nat → Option Kind} {lo hi : Nat} {R R' : List Report} (h : Runs K lo hi R)
    (h' : Runs K lo hi R') {r : Report} (hr : r ∈ R) : r ∈ R' := by
  have hp := h.pos r hr
  have hin := h.inside r hr
  obtain ⟨r', h1, h2, h3, h4⟩ := h'.cover r.start r.kind hin.1 (by omega)
    (h.bytes r hr r.start (Nat.le_refl _) (by omega))
  have hin' := h'.inside r' h1
  have e1 : r'.start = r.start := by
    rcases h.left r hr with hl | hl
    · omega
    · by_cases hlt : r'.start < r.start
      · exact absurd (by rw [← h2]; exact h'.bytes r' h1 (r.start - 1) (by omega) (by omega)) hl
      · omega
  have e2 : r'.size = r.size := by
    by_cases hlt : r.size < r'.size
    · rcases h.right r hr with hl | hl
      · omega
      · exact absurd (by rw [← h2]; exact h'.bytes r' h1 (r.start + r.size) (by omega) (by omega)) hl
    · by_cases hgt : r'.size < r.size
      · rcases h'.right r' h1 with hl | hl
        · omega
        · exact absurd (by rw [h2]; exact h.bytes r hr (r'.start + r'.size) (by omega) (by omega)) hl
      · omega
  obtain ⟨a, b, d⟩ := r
  obtain ⟨a', b', d'⟩ := r'
  dsimp only at e1 e2 h2
  subst e1 e2 h2
  exact h1

theorem Runs.nodup {K : Nat → Option Kind} {lo hi : Nat} {R : List Report} (h : Runs K lo hi R) :
    R.Nodup := by
  refine h.sorted.imp_of_mem ?_
  intro a b ha _ hab e
  have := h.pos a ha
  rw [← e] at hab
  omega

/-- The bytes determine the reports. -/
theorem Runs.unique {K : Nat → Option Kind} {lo hi : Nat} {R R' : List Report}
    (h : Runs K lo hi R) (h' : Runs K lo hi R') : R = R' := by
  have hp : R.Perm R' := (List.perm_ext_iff_of_nodup h.nodup h'.nodup).2
    fun r => ⟨fun hr => h.mem h' hr, fun hr => h'.mem h hr⟩
  refine List.Perm.eq_of_pairwise ?_ h.sorted h'.sorted hp
  intro a b ha hb h1 h2
  have := h.pos a ha
  have := h'.pos b hb
  omega

/-! ## The ranges -/

/-- The range gathered so far as a report. -/
def St.pending (s : St) : List Report :=
  if s.found then [⟨s.kind, s.badAddr, s.badEnd + 1 - s.badAddr⟩] else []

/-- A good byte at the end. -/
theorem Runs.skip {K : Nat → Option Kind} {lo hi : Nat} {R : List Report} (h : Runs K lo hi R)
    (hk : K hi = none) : Runs K lo (hi + 1) R where
  pos := h.pos
  inside r hr := ⟨(h.inside r hr).1, Nat.le_succ_of_le (h.inside r hr).2⟩
  bytes := h.bytes
  left := h.left
  right r hr := by
    rcases h.right r hr with h1 | h1
    · right; rw [h1, hk]; simp
    · exact .inr h1
  cover b k h1 h2 h3 := by
    by_cases hb : b = hi
    · rw [hb, hk] at h3; cases h3
    · exact h.cover b k h1 (by omega) h3
  sorted := h.sorted

/-- Only the last range reaches the end. -/
theorem Runs.last {K : Nat → Option Kind} {lo hi : Nat} {R : List Report} {p : Report}
    (h : Runs K lo hi (R ++ [p])) {r : Report} (hr : r ∈ R) : r.start + r.size ≤ p.start := by
  have := (List.pairwise_append.1 h.sorted).2.2 r hr p (List.mem_singleton.2 rfl)
  exact this

/-- A bad byte at the end that starts a range. -/
theorem Runs.start {K : Nat → Option Kind} {lo hi : Nat} {R : List Report} (h : Runs K lo hi R)
    (hle : lo ≤ hi) {k : Kind} (hk : K hi = some k)
    (hr : ∀ r ∈ R, r.start + r.size = hi → r.kind ≠ k) :
    Runs K lo (hi + 1) (R ++ [⟨k, hi, 1⟩]) where
  pos r hr := by
    rcases List.mem_append.1 hr with hr | hr
    · exact h.pos r hr
    · rw [List.mem_singleton.1 hr]; exact Nat.one_pos
  inside r hr := by
    rcases List.mem_append.1 hr with hr | hr
    · exact ⟨(h.inside r hr).1, Nat.le_succ_of_le (h.inside r hr).2⟩
    · rw [List.mem_singleton.1 hr]; exact ⟨hle, Nat.le_refl _⟩
  bytes r hr b h1 h2 := by
    rcases List.mem_append.1 hr with hr | hr
    · exact h.bytes r hr b h1 h2
    · rw [List.mem_singleton.1 hr] at h1 h2 ⊢
      dsimp only at h1 h2 ⊢
      rw [show b = hi by omega, hk]
  left r hr' := by
    rcases List.mem_append.1 hr' with hr' | hr'
    · exact h.left r hr'
    · rw [List.mem_singleton.1 hr']
      dsimp only
      by_cases hl : hi = lo
      · exact .inl hl
      · right
        intro hk'
        obtain ⟨r, h1, h2, h3, h4⟩ := h.cover (hi - 1) k (by omega) (by omega) hk'
        have := (h.inside r h1).2
        exact hr r h1 (by omega) h2
  right r hr' := by
    rcases List.mem_append.1 hr' with hr' | hr'
    · rcases h.right r hr' with h1 | h1
      · right
        rw [h1, hk]
        intro h2
        exact hr r hr' h1 (Option.some.inj h2).symm
      · exact .inr h1
    · rw [List.mem_singleton.1 hr']
      exact .inl rfl
  cover b k' h1 h2 h3 := by
    by_cases hb : b = hi
    · refine ⟨⟨k, hi, 1⟩, List.mem_append_right _ (List.mem_singleton.2 rfl), ?_, ?_, ?_⟩
      · rw [hb, hk] at h3; exact Option.some.inj h3
      · exact Nat.le_of_eq hb.symm
      · rw [hb]; exact Nat.lt_succ_self _
    · obtain ⟨r, h4, h5⟩ := h.cover b k' h1 (by omega) h3
      exact ⟨r, List.mem_append_left _ h4, h5⟩
  sorted := by
    refine List.pairwise_append.2 ⟨h.sorted, List.pairwise_singleton .., ?_⟩
    intro r hr' p hp
    rw [List.mem_singleton.1 hp]
    exact (h.inside r hr').2

/-- A bad byte at the end that extends the last range. -/
theorem Runs.extend {K : Nat → Option Kind} {lo hi : Nat} {R : List Report} {k : Kind} {st n : Nat}
    (h : Runs K lo hi (R ++ [⟨k, st, n⟩])) (hend : st + n = hi) (hk : K hi = some k) :
    Runs K lo (hi + 1) (R ++ [⟨k, st, n + 1⟩]) := by
  have hp : 0 < n := h.pos ⟨k, st, n⟩ (by simp)
  have hlast : ∀ r ∈ R, r.start + r.size ≤ st := fun r hr => h.last hr
  refine ⟨?_, ?_, ?_, ?_, ?_, ?_, ?_⟩
  · intro r hr
    rcases List.mem_append.1 hr with hr | hr
    · exact h.pos r (List.mem_append_left _ hr)
    · rw [List.mem_singleton.1 hr]; exact Nat.succ_pos _
  · intro r hr
    rcases List.mem_append.1 hr with hr | hr
    · have := h.inside r (List.mem_append_left _ hr)
      exact ⟨this.1, Nat.le_succ_of_le this.2⟩
    · rw [List.mem_singleton.1 hr]
      have h1 : lo ≤ st := (h.inside ⟨k, st, n⟩ (by simp)).1
      exact ⟨h1, by dsimp only; omega⟩
  · intro r hr b h1 h2
    rcases List.mem_append.1 hr with hr | hr
    · exact h.bytes r (List.mem_append_left _ hr) b h1 h2
    · rw [List.mem_singleton.1 hr] at h1 h2 ⊢
      dsimp only at h1 h2 ⊢
      by_cases hb : b = hi
      · rw [hb, hk]
      · exact h.bytes ⟨k, st, n⟩ (by simp) b h1 (by dsimp only; omega)
  · intro r hr
    rcases List.mem_append.1 hr with hr | hr
    · exact h.left r (List.mem_append_left _ hr)
    · rw [List.mem_singleton.1 hr]
      exact h.left ⟨k, st, n⟩ (by simp)
  · intro r hr
    rcases List.mem_append.1 hr with hr | hr
    · rcases h.right r (List.mem_append_left _ hr) with h1 | h1
      · have := hlast r hr
        omega
      · exact .inr h1
    · rw [List.mem_singleton.1 hr]
      left
      dsimp only
      omega
  · intro b k' h1 h2 h3
    by_cases hb : b = hi
    · refine ⟨⟨k, st, n + 1⟩, List.mem_append_right _ (List.mem_singleton.2 rfl), ?_, ?_, ?_⟩
      · rw [hb, hk] at h3; exact Option.some.inj h3
      · dsimp only; omega
      · dsimp only; omega
    · obtain ⟨r, h4, h5, h6, h7⟩ := h.cover b k' h1 (by omega) h3
      rcases List.mem_append.1 h4 with h4 | h4
      · exact ⟨r, List.mem_append_left _ h4, h5, h6, h7⟩
      · rw [List.mem_singleton.1 h4] at h5 h6 h7
        refine ⟨⟨k, st, n + 1⟩, List.mem_append_right _ (List.mem_singleton.2 rfl), h5, h6, ?_⟩
        dsimp only at h7 ⊢
        omega
  · have hs := List.pairwise_append.1 h.sorted
    refine List.pairwise_append.2 ⟨hs.1, List.pairwise_singleton .., ?_⟩
    intro r hr p hp'
    rw [List.mem_singleton.1 hp']
    exact hlast r hr

/-- The state of the ranges between two bytes. -/
structure Track (K : Nat → Option Kind) (lo hi : Nat) (s : St) : Prop where
  none : s.found = false → s.reports = []
  order : s.found = true → s.badAddr ≤ s.badEnd ∧ s.badEnd < hi
  runs : Runs K lo hi (s.reports ++ s.pending)

theorem Track.skip {K : Nat → Option Kind} {lo hi : Nat} {s s' : St} (h : Track K lo hi s)
    (hk : K hi = Option.none) (e1 : s'.reports = s.reports) (e2 : s'.found = s.found)
    (e3 : s'.kind = s.kind) (e4 : s'.badAddr = s.badAddr) (e5 : s'.badEnd = s.badEnd) :
    Track K lo (hi + 1) s' where
  none hf := by rw [e1]; exact h.none (by rw [← e2]; exact hf)
  order hf := by
    have := h.order (by rw [← e2]; exact hf)
    rw [e4, e5]
    omega
  runs := by
    have := h.runs.skip hk
    unfold St.pending at this ⊢
    rw [e1, e2, e3, e4, e5]
    exact this

/-- A bad byte, when nothing aborts. -/
theorem Track.bad {K : Nat → Option Kind} {lo hi : Nat} {s : St} (h : Track K lo hi s)
    (hle : lo ≤ hi) {f : Flags} (hf : f.abort = false) {k : Kind} (hk : K hi = some k) :
    Track K lo (hi + 1) (s.bad f k hi) ∧ (s.bad f k hi).good = false ∧
      (s.bad f k hi).stop = s.stop ∧ (s.bad f k hi).sh = s.sh ∧
      (s.bad f k hi).mapped = s.mapped := by
  have hstart : ∀ s' : St, s'.found = true → s'.reports = s.reports ++ s.pending →
      s'.kind = k → s'.badAddr = hi → s'.badEnd = hi →
      (∀ r ∈ s.reports ++ s.pending, r.start + r.size = hi → r.kind ≠ k) →
      Track K lo (hi + 1) s' := by
    intro s' e1 e2 e3 e4 e5 hr
    refine ⟨fun h' => (by rw [e1] at h'; cases h'), fun _ => (by rw [e4, e5]; omega), ?_⟩
    have := h.runs.start hle hk hr
    unfold St.pending
    rw [e2, e1, e3, e4, e5]
    simpa using this
  unfold St.bad
  by_cases hfo : s.found = true
  · rw [if_pos hfo]
    obtain ⟨ho1, ho2⟩ := h.order hfo
    have hpend : s.pending = [⟨s.kind, s.badAddr, s.badEnd + 1 - s.badAddr⟩] := by
      unfold St.pending; rw [if_pos hfo]
    have hruns := h.runs
    rw [hpend] at hruns hstart
    have hreach : ∀ r ∈ s.reports ++ [⟨s.kind, s.badAddr, s.badEnd + 1 - s.badAddr⟩],
        r.start + r.size = hi → r.kind = s.kind ∧ s.badEnd + 1 = hi := by
      intro r hr he
      rcases List.mem_append.1 hr with hr | hr
      · have := hruns.last hr
        dsimp only at this
        omega
      · rw [List.mem_singleton.1 hr] at he ⊢
        dsimp only at he ⊢
        exact ⟨rfl, by omega⟩
    by_cases hkk : s.kind = k
    · rw [if_neg (by rw [hkk]; simp)]
      by_cases hb : s.badEnd < hi - 1
      · rw [if_pos (.inl hb), if_neg (by simp [hf])]
        refine ⟨hstart _ rfl rfl rfl rfl rfl ?_, rfl, rfl, rfl, rfl⟩
        intro r hr he
        have := (hreach r hr he).2
        omega
      · rw [if_neg (by simp [hb, hf])]
        refine ⟨⟨fun h' => ?_, fun _ => ?_, ?_⟩, rfl, rfl, rfl, rfl⟩
        · dsimp only at h'; rw [hfo] at h'; cases h'
        · dsimp only; omega
        · have he : s.badAddr + (s.badEnd + 1 - s.badAddr) = hi := by omega
          rw [hkk] at hruns
          have := hruns.extend he hk
          unfold St.pending
          dsimp only
          rw [if_pos hfo, hkk, show hi + 1 - s.badAddr = s.badEnd + 1 - s.badAddr + 1 by omega]
          exact this
    · rw [if_pos hkk, if_neg (by simp [hf])]
      refine ⟨hstart _ rfl rfl rfl rfl rfl ?_, rfl, rfl, rfl, rfl⟩
      intro r hr he
      rw [(hreach r hr he).1]
      exact hkk
  · rw [if_neg hfo]
    have hfo : s.found = false := by simpa using hfo
    have hp : s.pending = [] := by unfold St.pending; rw [hfo]; rfl
    refine ⟨hstart _ rfl ?_ rfl rfl rfl ?_, rfl, rfl, rfl, rfl⟩
    · rw [hp, h.none hfo]; simp [St.start, h.none hfo]
    · rw [hp, h.none hfo]; simp

/-! ## One byte -/

/-- `sh` with the value `v` at `a`. -/
def upd (sh : Nat → Sh) (a : Nat) (v : Sh) : Nat → Sh := fun x => if x = a then v else sh x

theorem set_sh {c : Conf} (hc : c.map4 = false) (s : St) (a : Nat) (v : Sh) :
    (s.set c a v).sh = upd s.sh a v := by
  funext x
  simp [St.set, upd, hc]

/-- What one byte does to the shadow memory. -/
def shStep (f : Flags) (c : Conf) (val : Nat → Sh) (addr i : Nat) (sh : Nat → Sh) : Nat → Sh :=
  let a := addr + i
  if sh a = .unaddr then
    if f.pushpop ∧ f.write then
      if c.redzone > 0 then upd (upd sh a (value f val i)) (a - c.redzone) .undef
      else upd sh a (value f val i)
    else sh
  else if ¬ f.write ∧ ¬ f.checkAddr then
    let sh := if wrong f c sh a = some .undef ∧ ¬ c.leaveUninit then upd sh a .defined else sh
    if f.pushpop then
      if c.redzone > 0 then upd (upd sh a .undef) (a - c.redzone) .unaddr else upd sh a .unaddr
    else sh
  else if ¬ f.checkAddr then
    if f.pushpop ∧ f.write ∧ c.redzone > 0 then
      upd (upd sh a (value f val i)) (a - c.redzone) .undef
    else
      let new := newVal f val i sh
      if sh a = .bitlevel ∨ new = .bitlevel then sh else upd sh a new
  else sh

/-- The result of the check is spoilt by a byte. -/
def spoilt (f : Flags) (c : Conf) (sh : Nat → Sh) (a : Nat) : Prop :=
  wrong f c sh a ≠ none ∨ (¬ f.write ∧ ¬ f.checkAddr ∧ f.checkDef ∧ sh a = .bitlevel)

theorem upd_self (sh : Nat → Sh) (a : Nat) : upd sh a (sh a) = sh := by
  funext x
  unfold upd
  split
  · rename_i h; rw [h]
  · rfl

theorem core_spec {f : Flags} {c : Conf} (hf : f.abort = false) (hc : c.map4 = false)
    (val : Nat → Sh) {addr i : Nat} {s : St} (hs : s.stop = false) {K : Nat → Option Kind}
    (hK : K (addr + i) = wrong f c s.sh (addr + i)) (ht : Track K addr (addr + i) s) :
    Track K addr (addr + i + 1) (core f c val addr i s) ∧
    (core f c val addr i s).stop = false ∧
    (core f c val addr i s).sh = shStep f c val addr i s.sh ∧
    ((core f c val addr i s).good = true ↔ s.good = true ∧ ¬ spoilt f c s.sh (addr + i)) ∧
    (core f c val addr i s).mapped = s.mapped := by
  unfold core shStep
  dsimp only
  by_cases hu : s.sh (addr + i) = .unaddr
  · rw [if_pos hu, if_pos hu]
    unfold stepUnaddr
    dsimp only
    by_cases hp : f.pushpop = true ∧ f.write = true
    · rw [if_pos hp, if_pos hp]
      have hw : wrong f c s.sh (addr + i) = none := by
        unfold wrong; rw [hu]; simp [hp]
      have hn : ¬ spoilt f c s.sh (addr + i) := by
        rintro (h | h)
        · exact h hw
        · rw [hu] at h; exact absurd h.2.2.2 (by decide)
      rw [hw] at hK
      split
      · refine ⟨ht.skip hK rfl rfl rfl rfl rfl, hs, ?_, by simp [hn, St.set], rfl⟩
        rw [set_sh hc, set_sh hc]
      · refine ⟨ht.skip hK rfl rfl rfl rfl rfl, hs, ?_, by simp [hn, St.set], rfl⟩
        rw [set_sh hc]
    · rw [if_neg hp, if_neg hp]
      by_cases he : c.unaddrExc (addr + i) = true
      · rw [if_pos he]
        have hw : wrong f c s.sh (addr + i) = none := by
          unfold wrong; rw [hu]; simp [he]
        have hn : ¬ spoilt f c s.sh (addr + i) := by
          rintro (h | h)
          · exact h hw
          · rw [hu] at h; exact absurd h.2.2.2 (by decide)
        rw [hw] at hK
        exact ⟨ht.skip hK rfl rfl rfl rfl rfl, hs, rfl, by simp [hn], rfl⟩
      · rw [if_neg he]
        have hw : wrong f c s.sh (addr + i) = some .unaddr := by
          unfold wrong; rw [hu]
          dsimp only
          rw [if_neg (by rintro (h | h); exacts [hp h, he h])]
        rw [hw] at hK
        obtain ⟨h1, h2, h3, h4, h5⟩ := ht.bad (Nat.le_add_right ..) hf hK
        refine ⟨h1, h3.trans hs, h4, ?_, h5⟩
        rw [h2]
        simp [spoilt, hw]
  · rw [if_neg hu, if_neg hu]
    by_cases hr : ¬ f.write = true ∧ ¬ f.checkAddr = true
    · rw [if_pos hr, if_pos hr]
      unfold stepRead
      dsimp only
      -- the check
      obtain ⟨t, ht1, ht2, ht3, ht4, ht5, ht6⟩ : ∃ t : St,
          (if s.sh (addr + i) = .undef then
            if ¬ c.undefExc (addr + i) = true ∧ f.checkDef = true then
              if (s.bad f .undef (addr + i)).stop = true ∨ c.leaveUninit = true
              then s.bad f .undef (addr + i)
              else (s.bad f .undef (addr + i)).set c (addr + i) .defined
            else s
          else if f.checkDef = true ∧ s.sh (addr + i) = .bitlevel then { s with good := false }
          else s) = t ∧
          Track K addr (addr + i + 1) t ∧ t.stop = false ∧
          t.sh = (if wrong f c s.sh (addr + i) = some .undef ∧ ¬ c.leaveUninit = true
            then upd s.sh (addr + i) .defined else s.sh) ∧
          (t.good = true ↔ s.good = true ∧ ¬ spoilt f c s.sh (addr + i)) ∧
          t.mapped = s.mapped := by
        refine ⟨_, rfl, ?_⟩
        by_cases hud : s.sh (addr + i) = .undef
        · rw [if_pos hud]
          by_cases hx : ¬ c.undefExc (addr + i) = true ∧ f.checkDef = true
          · rw [if_pos hx]
            have hw : wrong f c s.sh (addr + i) = some .undef := by
              unfold wrong; rw [hud]; dsimp only; rw [if_pos ⟨hr.1, hr.2, hx.2, hx.1⟩]
            rw [hw] at hK
            obtain ⟨h1, h2, h3, h4, h5⟩ := ht.bad (Nat.le_add_right ..) hf hK
            rw [h3, hs]
            have hg : ((s.bad f .undef (addr + i)).good = true ↔
                s.good = true ∧ ¬ spoilt f c s.sh (addr + i)) := by
              rw [h2]; simp [spoilt, hw]
            by_cases hl : c.leaveUninit = true
            · rw [if_pos (.inr hl), if_neg (by simp [hl])]
              exact ⟨h1, h3.trans hs, h4, hg, h5⟩
            · rw [if_neg (by simp [hl]), if_pos ⟨hw, hl⟩]
              refine ⟨⟨h1.none, h1.order, h1.runs⟩, h3.trans hs, ?_, hg, h5⟩
              rw [set_sh hc, h4]
          · rw [if_neg hx]
            have hw : wrong f c s.sh (addr + i) = none := by
              unfold wrong; rw [hud]; dsimp only
              rw [if_neg (fun h => hx ⟨h.2.2.2, h.2.2.1⟩)]
            have hn : ¬ spoilt f c s.sh (addr + i) := by
              rintro (h | h)
              · exact h hw
              · rw [hud] at h; exact absurd h.2.2.2 (by decide)
            rw [hw] at hK
            refine ⟨ht.skip hK rfl rfl rfl rfl rfl, hs, ?_, by simp [hn], rfl⟩
            rw [if_neg (by rw [hw]; simp)]
        · rw [if_neg hud]
          have hw : wrong f c s.sh (addr + i) = none := by
            unfold wrong
            cases h : s.sh (addr + i) <;> simp_all
          rw [hw] at hK
          rw [if_neg (show ¬ (wrong f c s.sh (addr + i) = some .undef ∧ _) by rw [hw]; simp)]
          by_cases hbl : f.checkDef = true ∧ s.sh (addr + i) = .bitlevel
          · rw [if_pos hbl]
            refine ⟨ht.skip hK rfl rfl rfl rfl rfl, hs, rfl, ?_, rfl⟩
            have : spoilt f c s.sh (addr + i) := .inr ⟨hr.1, hr.2, hbl.1, hbl.2⟩
            simp [this]
          · rw [if_neg hbl]
            have hn : ¬ spoilt f c s.sh (addr + i) := by
              rintro (h | h)
              · exact h hw
              · exact hbl ⟨h.2.2.1, h.2.2.2⟩
            exact ⟨ht.skip hK rfl rfl rfl rfl rfl, hs, rfl, by simp [hn], rfl⟩
      rw [ht1, ← ht4, ht3, if_neg (by simp)]
      by_cases hp : f.pushpop = true
      · rw [if_pos hp, if_pos hp]
        split
        · refine ⟨⟨ht2.none, ht2.order, ht2.runs⟩, ht3, ?_, ht5, ht6⟩
          rw [set_sh hc, set_sh hc]
        · refine ⟨⟨ht2.none, ht2.order, ht2.runs⟩, ht3, ?_, ht5, ht6⟩
          rw [set_sh hc]
      · rw [if_neg hp, if_neg hp]
        exact ⟨ht2, ht3, rfl, ht5, ht6⟩
    · rw [if_neg hr, if_neg hr]
      have hw : wrong f c s.sh (addr + i) = none := by
        unfold wrong
        cases h : s.sh (addr + i)
        · rfl
        · exact absurd h hu
        · rfl
        · dsimp only
          rw [if_neg (fun h => hr ⟨h.1, h.2.1⟩)]
      have hn : ¬ spoilt f c s.sh (addr + i) := by
        rintro (h | h)
        · exact h hw
        · exact hr ⟨h.1, h.2.1⟩
      rw [hw] at hK
      by_cases hca : ¬ f.checkAddr = true
      · rw [if_pos hca, if_pos hca]
        unfold stepWrite
        dsimp only
        by_cases hp : f.pushpop = true ∧ f.write = true ∧ c.redzone > 0
        · rw [if_pos hp, if_pos hp]
          refine ⟨ht.skip hK rfl rfl rfl rfl rfl, hs, ?_, by simp [hn, St.set], rfl⟩
          rw [set_sh hc, set_sh hc]
        · rw [if_neg hp, if_neg hp]
          generalize newVal f val i s.sh = new
          by_cases hb : s.sh (addr + i) = .bitlevel ∨ new = .bitlevel
          · rw [if_pos hb, if_pos hb]
            exact ⟨ht.skip hK rfl rfl rfl rfl rfl, hs, rfl, by simp [hn], rfl⟩
          · rw [if_neg hb, if_neg hb]
            by_cases hne : s.sh (addr + i) = new
            · rw [if_pos hne]
              refine ⟨ht.skip hK rfl rfl rfl rfl rfl, hs, ?_, by simp [hn], rfl⟩
              rw [← hne, upd_self]
            · rw [if_neg hne]
              refine ⟨ht.skip hK rfl rfl rfl rfl rfl, hs, ?_, by simp [hn, St.set], rfl⟩
              rw [set_sh hc]
      · rw [if_neg hca, if_neg hca]
        exact ⟨ht.skip hK rfl rfl rfl rfl rfl, hs, rfl, by simp [hn], rfl⟩

theorem step_spec {f : Flags} {c : Conf} (hf : f.abort = false) (hc : c.map4 = false)
    (val : Nat → Sh) {addr i : Nat} {s : St} (hs : s.stop = false) {K : Nat → Option Kind}
    (hK : K (addr + i) = wrong f c s.sh (addr + i)) (ht : Track K addr (addr + i) s) :
    Track K addr (addr + i + 1) (step f c val addr i s) ∧
    (step f c val addr i s).stop = false ∧
    (step f c val addr i s).sh = shStep f c val addr i s.sh ∧
    ((step f c val addr i s).good = true ↔ s.good = true ∧ ¬ spoilt f c s.sh (addr + i)) ∧
    (step f c val addr i s).mapped = s.mapped ++
      (if f.write = false ∧ f.useValues = true then [(memrefIdx f i, s.sh (addr + i))] else []) := by
  obtain ⟨h1, h2, h3, h4, h5⟩ := core_spec hf hc val hs hK ht
  unfold step
  dsimp only
  rw [h2, if_neg (by simp)]
  by_cases hu : f.write = false ∧ f.useValues = true
  · rw [if_pos (by simpa using hu), if_pos hu]
    exact ⟨⟨h1.none, h1.order, h1.runs⟩, rfl, h3, h4, by dsimp only; rw [h5]⟩
  · rw [if_neg (by simpa using hu), if_neg hu]
    exact ⟨h1, h2, h3, h4, by rw [h5]; simp⟩

/-! ## The loop -/

/-- Induction over the bytes, for one shadow value per byte. -/
theorem loop_ind {f : Flags} {c : Conf} (hc : c.map4 = false) {val : Nat → Sh} {addr sz : Nat}
    (P : Nat → St → Prop)
    (hstep : ∀ i s, i < sz → P i s → P (i + 1) (step f c val addr i s) ∧
      (step f c val addr i s).stop = false) :
    ∀ n i s, i + n = sz → P i s → P sz (loop f c val addr sz n i s) := by
  intro n
  induction n with
  | zero =>
    intro i s h hp
    rw [loop]
    rwa [← show i = sz by omega]
  | succ n ih =>
    intro i s h hp
    obtain ⟨h1, h2⟩ := hstep i s (by omega) hp
    rw [loop, if_pos (by omega)]
    dsimp only
    rw [h2, hc]
    simp only [Bool.false_eq_true, if_false]
    exact ih (i + 1) _ (by omega) h1

/-- A byte changes nothing above it. -/
theorem shStep_above (f : Flags) (c : Conf) (val : Nat → Sh) (addr i : Nat) (sh : Nat → Sh)
    {b : Nat} (hb : addr + i < b) : shStep f c val addr i sh b = sh b := by
  unfold shStep upd
  dsimp only
  have h1 : b ≠ addr + i := by omega
  have h2 : b ≠ addr + i - c.redzone := by omega
  repeat' split
  all_goals simp_all

/-- The state after the first `i` bytes. -/
structure Inv (f : Flags) (c : Conf) (val : Nat → Sh) (addr : Nat) (sh : Nat → Sh) (i : Nat)
    (s : St) : Prop where
  track : Track (wrong f c sh) addr (addr + i) s
  stop : s.stop = false
  shadow : s.sh = (List.range i).foldl (fun m j => shStep f c val addr j m) sh
  above : ∀ b, addr + i ≤ b → s.sh b = sh b
  good : s.good = true ↔ ∀ j < i, ¬ spoilt f c sh (addr + j)
  mapped : s.mapped = if f.write = false ∧ f.useValues = true
    then (List.range i).map fun j => (memrefIdx f j, sh (addr + j)) else []

theorem spoilt_congr {f : Flags} {c : Conf} {sh sh' : Nat → Sh} {a : Nat} (h : sh a = sh' a) :
    spoilt f c sh a ↔ spoilt f c sh' a := by
  unfold spoilt wrong
  rw [h]

theorem inv_init (f : Flags) (c : Conf) (val : Nat → Sh) (addr : Nat) (sh : Nat → Sh) :
    Inv f c val addr sh 0 (St.init sh) where
  track := by
    refine ⟨fun _ => rfl, fun h => (by cases h), ?_⟩
    refine ⟨fun r hr => (by cases hr), fun r hr => (by cases hr), fun r hr => (by cases hr),
      fun r hr => (by cases hr), fun r hr => (by cases hr), ?_, List.Pairwise.nil⟩
    intro b k h1 h2
    omega
  stop := rfl
  shadow := rfl
  above _ _ := rfl
  good := by simp [St.init]
  mapped := by simp [St.init]

theorem inv_step {f : Flags} {c : Conf} (hf : f.abort = false) (hc : c.map4 = false)
    {val : Nat → Sh} {addr : Nat} {sh : Nat → Sh} {i : Nat} {s : St}
    (h : Inv f c val addr sh i s) : Inv f c val addr sh (i + 1) (step f c val addr i s) := by
  have he : s.sh (addr + i) = sh (addr + i) := h.above _ (Nat.le_refl _)
  obtain ⟨h1, h2, h3, h4, h5⟩ := step_spec hf hc val h.stop (K := wrong f c sh)
    (by unfold wrong; rw [he]) h.track
  refine ⟨h1, h2, ?_, ?_, ?_, ?_⟩
  · rw [h3, h.shadow, List.range_succ, List.foldl_append]
    rfl
  · intro b hb
    rw [h3, shStep_above _ _ _ _ _ _ (by omega)]
    exact h.above b (by omega)
  · rw [h4, h.good, spoilt_congr he]
    constructor
    · rintro ⟨a, b⟩ j hj
      by_cases hji : j = i
      · rw [hji]; exact b
      · exact a j (by omega)
    · exact fun a => ⟨fun j hj => a j (by omega), a i (by omega)⟩
  · rw [h5, h.mapped, he]
    by_cases hu : f.write = false ∧ f.useValues = true
    · simp only [if_pos hu, List.range_succ, List.map_append, List.map_cons, List.map_nil]
    · simp only [if_neg hu, List.append_nil]

theorem memRef_inv {f : Flags} {c : Conf} (hf : f.abort = false) (hc : c.map4 = false)
    (val : Nat → Sh) (addr sz : Nat) (sh : Nat → Sh) :
    Inv f c val addr sh sz (loop f c val addr sz sz 0 (St.init sh)) :=
  loop_ind hc (P := fun i s => Inv f c val addr sh i s)
    (fun _ _ _ h => ⟨inv_step hf hc h, (inv_step hf hc h).stop⟩) sz 0 _ (by omega)
    (inv_init f c val addr sh)

/-- The report after the loop changes nothing else. -/
theorem memRef_fields (f : Flags) (c : Conf) (val : Nat → Sh) (addr sz : Nat) (sh : Nat → Sh) :
    let s := loop f c val addr sz sz 0 (St.init sh)
    (memRef f c val addr sz sh).reports = s.reports ++ s.pending ∧
    (memRef f c val addr sz sh).sh = s.sh ∧ (memRef f c val addr sz sh).good = s.good ∧
    (memRef f c val addr sz sh).mapped = s.mapped := by
  unfold memRef St.pending
  dsimp only
  split
  · exact ⟨rfl, rfl, rfl, rfl⟩
  · exact ⟨by simp, rfl, rfl, rfl⟩

end Verif.MemRef
