import Verif.AllocProps
import Mathlib.Tactic.Ring

/-!
# The replacement allocator: theorems for C20-C26

All statements are about the state after an arbitrary sequence of calls from startup on
(`GoodRun`: sizes a few pages below 4 GB, the system hands out unused memory, the application writes
only to its own blocks).  `L` is the application's own record of its blocks.
-/
namespace Verif.Al

variable {c : Cfg} {s : St} {L : List (Nat × Nat)} {F : List ((Nat × Nat) × Bool)} {base commit : Nat} {brk : Bool}
  {ops : List Op}

theorem demo_ok : CfgOk demo := ⟨by decide, by decide, by decide, by decide, by decide⟩

theorem demo_start : Start demo 65536 69632 := ⟨by decide, by decide, by decide, by decide⟩

/-- The demonstration run meets the conditions of all theorems below. -/
theorem demo_good : GoodRun demo (demo.init 65536 69632 true) [] demoRun := goodRunB_spec (by decide +kernel)

example : (exec demo (demo.init 65536 69632 true) [] demoRun).map (fun x => (x.2.1, x.1.delay)) =
    some ([(536879248, 5000), (536875168, 4000), (536871088, 4000)], [66240, 66096]) := by decide +kernel

theorem run_inv (hc : CfgOk c) (hs : Start c base commit) (hg : GoodRun c (c.init base commit brk) [] ops)
    (he : exec c (c.init base commit brk) [] ops = some (s, L, F)) :
    ∃ Q H, Inv c s L Q ∧ Chunked (small F) H ∧ Q <:+ H ∧
      ((∀ op ∈ ops, op.avail) → Q = trim c.delayFrees c.delayMax H) := by
  obtain ⟨s', L', F', Q, H, e, i, f, q1, q2⟩ := start_inv hc hs hg
  rw [he] at e
  cases e
  exact ⟨Q, H, i, f, q1, q2⟩

theorem delay_eq (s : St) (R : Nat → Nat) : s.delay = (quar R s).map Prod.fst := by
  simp [quar, Function.comp_def]

theorem pairwise_inj {α : Type} {f : α → Nat} : ∀ {l : List α}, (l.Pairwise fun x y => f x ≠ f y) →
    ∀ {x y}, x ∈ l → y ∈ l → f x = f y → x = y := by
  intro l
  induction l with
  | nil => intro _ x y hx; cases hx
  | cons z l ih =>
    intro h x y hx hy he
    obtain ⟨h1, h2⟩ := List.pairwise_cons.1 h
    rcases List.mem_cons.1 hx with rfl | hx' <;> rcases List.mem_cons.1 hy with rfl | hy'
    · rfl
    · exact absurd he (h1 _ hy')
    · exact absurd he.symm (h1 _ hx')
    · exact ih h2 hx' hy' he

/-! ## C20 -/

/-- The allocator never reads a missing header or breaks a list: every sequence of calls runs to its
end. -/
theorem C20_total_partial (hc : CfgOk c) (hs : Start c base commit) (hg : GoodRun c (c.init base commit brk) [] ops) :
    ∃ s L F, exec c (c.init base commit brk) [] ops = some (s, L, F) := by
  obtain ⟨s, L, F, -, -, e, -⟩ := start_inv hc hs hg
  exact ⟨s, L, F, e⟩

/-- Any two blocks are separated by header and redzones. -/
theorem C20_disjoint_partial (hc : CfgOk c) (hs : Start c base commit) (hg : GoodRun c (c.init base commit brk) [] ops)
    (he : exec c (c.init base commit brk) [] ops = some (s, L, F)) :
    L.Pairwise fun x y => x.1 + x.2 + c.inter ≤ y.1 ∨ y.1 + y.2 + c.inter ≤ x.1 := by
  obtain ⟨Q, H, i, -⟩ := run_inv hc hs hg he
  exact i.apart

/-- The space between blocks holds a header and a redzone. -/
theorem C20_gap (c : Cfg) : c.hs ≤ c.inter ∧ c.rz ≤ c.inter ∧ (c.shared = false → c.inter = 2 * c.rz + c.hs) := by
  refine ⟨by have := hs_le c; omega, by unfold Cfg.inter; omega, fun h => ?_⟩
  unfold Cfg.inter Cfg.hbr
  rw [h]
  simp
  omega

/-- Every block lies with its redzones inside an arena or inside its own mapping. -/
theorem C20_inside_partial (hc : CfgOk c) (hs : Start c base commit) (hg : GoodRun c (c.init base commit brk) [] ops)
    (he : exec c (c.init base commit brk) [] ops = some (s, L, F)) :
    ∀ x ∈ L, 0 < x.1 ∧ x.1 % c.A = 0 ∧
      ((∃ a ∈ s.arenas, a.base + c.inter ≤ x.1 ∧ x.1 + x.2 + c.inter ≤ a.commit) ∨
        ∃ m ∈ s.maps, m.ptr = x.1 ∧ m.base + c.rz + c.hbr ≤ x.1 ∧ x.1 + x.2 + c.rz ≤ m.base + m.size) := by
  obtain ⟨Q, H, ⟨R, G, hp, hcalm, hL, rfl⟩, -⟩ := run_inv hc hs hg he
  exact fun x hx => hp.block_place hc (hL.mem_iff.1 hx)

/-- Memory obtained from the system is not shared between arenas and mappings. -/
theorem C20_regions (hc : CfgOk c) (hs : Start c base commit) (hg : GoodRun c (c.init base commit brk) [] ops)
    (he : exec c (c.init base commit brk) [] ops = some (s, L, F)) :
    (s.arenas.map (fun a => (a.base, a.commit)) ++ s.maps.map fun m => (m.base, m.base + m.size)).Pairwise
      fun x y => x.2 ≤ y.1 ∨ y.2 ≤ x.1 := by
  obtain ⟨Q, H, ⟨R, G, hp, hcalm, hL, rfl⟩, -⟩ := run_inv hc hs hg he
  exact hp.regs

theorem pow2_dvd {x : Nat} (h0 : x ≠ 0) (h : isPow2 x = true) : x ∣ effAlign c x := by
  unfold effAlign
  split
  · next hlt =>
    obtain ⟨m, hm⟩ := A_pow c
    obtain ⟨j, hj⟩ := isPow2_pow (by omega) h
    rw [hm, hj] at hlt ⊢
    exact Nat.pow_dvd_pow 2 (Nat.le_of_lt ((Nat.pow_lt_pow_iff_right (by omega)).1 hlt))
  · exact Nat.dvd_refl _

/-- The result of an aligned allocation is aligned as asked for. -/
theorem C20_aligned_partial (hc : CfgOk c) (hs : Start c base commit) (hg : GoodRun c (c.init base commit brk) [] ops)
    (he : exec c (c.init base commit brk) [] ops = some (s, L, F)) {os : Os} {req align : Nat} {zero : Bool}
    (hgood : Good c s L (.alloc os req align zero)) {s' : St} {r : Nat}
    (ha : alloc c os s req align zero = some (s', r)) (hr : r ≠ 0) : r % c.A = 0 ∧ (align ≠ 0 → align ∣ r) := by
  obtain ⟨Q, H, i, -⟩ := run_inv hc hs hg he
  obtain ⟨s1, r1, Q1, e, i1, -, h1, -⟩ := alloc_inv hc i zero hgood.1 hgood.2
  rw [ha] at e
  cases e
  refine ⟨?_, fun h0 => ?_⟩
  · rw [if_neg hr] at i1
    obtain ⟨R, G, hp, hcalm, hL, rfl⟩ := i1
    exact (hp.block_place hc (hL.mem_iff.1 List.mem_cons_self)).2.1
  · have hpow : isPow2 align = true := by
      cases hb : isPow2 align with
      | true => rfl
      | false =>
        unfold alloc at ha
        split at ha
        · cases ha; exact absurd rfl hr
        · rw [if_pos ⟨h0, by rw [hb]; rfl⟩] at ha
          cases ha; exact absurd rfl hr
    exact Nat.dvd_trans (pow2_dvd h0 hpow) (Nat.dvd_of_mod_eq_zero (h1 hr).1)

/-- A configuration with room in the quarantine. -/
def demoBig : Cfg := { demo with delayFrees := 100, delayMax := 1000000 }

/-- Fill two arenas while a block of the first one is in quarantine. -/
def oomRun : List Op :=
  [.alloc { } 130000 0 false, .free { } 65904, .alloc { } 130000 0 false] ++
    List.replicate 32 (.alloc { arena := some 0x20000000 } 130000 0 false)

/-- Without the assumption that the system has memory once there is a second arena, an allocation
breaks down: it hands over a quarantined block of the first arena while only the last arena is
searched for its neighbour. -/
theorem C20_total_needs_memory :
    ∃ s L F, exec demoBig (demoBig.init 65536 (65536 + 262144) true) [] oomRun = some (s, L, F) ∧
      s.arenas.length = 2 ∧ alloc demoBig { } s 130000 0 false = none := by
  have h : ((exec demoBig (demoBig.init 65536 (65536 + 262144) true) [] oomRun).map fun x =>
      (x.1.arenas.length, (alloc demoBig { } x.1 130000 0 false).isNone)) = some (2, true) := by decide +kernel
  cases he : exec demoBig (demoBig.init 65536 (65536 + 262144) true) [] oomRun with
  | none => rw [he] at h; cases h
  | some x =>
    obtain ⟨s, L, F⟩ := x
    rw [he] at h
    simp only [Option.map_some, Option.some.injEq, Prod.mk.injEq] at h
    exact ⟨s, L, F, rfl, h.1, Option.isNone_iff_eq_none.1 h.2⟩

/-! ## C21 -/

/-- The quarantine consists of the most recently freed blocks in the order of the frees; the
counters are exact; no quarantined block overlaps a block in use. -/
theorem C21_fifo (hc : CfgOk c) (hs : Start c base commit) (hg : GoodRun c (c.init base commit brk) [] ops)
    (he : exec c (c.init base commit brk) [] ops = some (s, L, F)) :
    ∃ Q : List (Nat × Nat), s.delay = Q.map Prod.fst ∧ s.dChunks = Q.length ∧ s.dBytes = (Q.map Prod.snd).sum ∧
      s.delay <:+ (small F).map Prod.fst ∧ (∃ F', F' <:+ small F ∧ Chunked F' Q) ∧
      ∀ x ∈ Q, ∀ y ∈ L, x.1 + x.2 + c.inter ≤ y.1 ∨ y.1 + y.2 + c.inter ≤ x.1 := by
  obtain ⟨Q, H, i, hF, ⟨t, ht⟩, -⟩ := run_inv hc hs hg he
  obtain ⟨R, G, hp, hcalm, hL, rfl⟩ := i
  have hfst := delay_eq s R
  subst ht
  obtain ⟨F1, F2, h1, h2, h3⟩ : ∃ F1 F2, small F = F1 ++ F2 ∧ Chunked F1 t ∧ Chunked F2 (quar R s) := by
    refine ⟨(small F).take t.length, (small F).drop t.length, (List.take_append_drop _ _).symm, ?_, ?_⟩
    · have := List.forall₂_take t.length hF
      rwa [List.take_left'] at this
      rfl
    · have := List.forall₂_drop t.length hF
      rwa [List.drop_left'] at this
      rfl
  refine ⟨quar R s, hfst, hp.dChunks_eq, hp.dBytes_eq, ⟨F1.map Prod.fst, ?_⟩, ⟨F2, ⟨F1, h1.symm⟩, h3⟩, ?_⟩
  · rw [h1, List.map_append, hfst]
    congr 1
    clear * - h3
    generalize quar R s = Z at h3 ⊢
    induction h3 with
    | nil => rfl
    | cons h _ ih => rw [List.map_cons, List.map_cons, h.1, ih]
  · intro x hx y hy
    exact hp.quar_apart hx (hL.mem_iff.1 hy)

/-- While the system has memory, the quarantine is exactly the longest run of most recent frees that
stays below both limits; so a freed block is not reused before the limits demand it. -/
theorem C21_delay_partial (hc : CfgOk c) (hs : Start c base commit) (hg : GoodRun c (c.init base commit brk) [] ops)
    (he : exec c (c.init base commit brk) [] ops = some (s, L, F)) (hav : ∀ op ∈ ops, op.avail) :
    ∃ H, Chunked (small F) H ∧ s.delay = (trim c.delayFrees c.delayMax H).map Prod.fst ∧
      (∀ S, S <:+ H → S.length < c.delayFrees → (S.map Prod.snd).sum < c.delayMax →
        ∀ x ∈ S, x.1 ∈ s.delay ∧ ∀ y ∈ L, x.1 + x.2 + c.inter ≤ y.1 ∨ y.1 + y.2 + c.inter ≤ x.1) ∧
      (s.delay = [] ∨ s.dChunks < c.delayFrees ∧ s.dBytes < c.delayMax) := by
  obtain ⟨Q, H, i, hF, -, hQ⟩ := run_inv hc hs hg he
  have hq := hQ hav
  obtain ⟨R, G, hp, hcalm, hL, rfl⟩ := i
  have hfst := delay_eq s R
  refine ⟨H, hF, by rw [hfst, hq], ?_, ?_⟩
  · intro S hS h1 h2 x hx
    have hm : x ∈ quar R s := by
      rw [hq]
      exact (trim_longest ⟨h1, h2⟩ H hS).subset hx
    refine ⟨?_, fun y hy => hp.quar_apart hm (hL.mem_iff.1 hy)⟩
    rw [hfst]
    exact List.mem_map_of_mem hm
  · rcases trim_within c.delayFrees c.delayMax H with h | h
    · left
      rw [hfst, hq, h]; rfl
    · right
      rw [← hq] at h
      exact ⟨by rw [hp.dChunks_eq]; exact h.1, by rw [hp.dBytes_eq]; exact h.2⟩

/-- In terms of later frees: a freed chunk is kept while fewer than `delayFrees - 1` chunks have been
freed after it and the chunks since it stay below the byte limit. -/
theorem C21_kept_partial (hc : CfgOk c) (hs : Start c base commit) (hg : GoodRun c (c.init base commit brk) [] ops)
    (he : exec c (c.init base commit brk) [] ops = some (s, L, F)) (hav : ∀ op ∈ ops, op.avail) :
    ∃ H, Chunked (small F) H ∧ ∀ F1 x F2, small F = F1 ++ x :: F2 → F2.length + 1 < c.delayFrees →
      ((H.drop F1.length).map Prod.snd).sum < c.delayMax →
      x.1 ∈ s.delay ∧ ∀ y ∈ L, x.1 + x.2 + c.inter ≤ y.1 ∨ y.1 + y.2 + c.inter ≤ x.1 := by
  obtain ⟨H, hF, -, hk, -⟩ := C21_delay_partial hc hs hg he hav
  refine ⟨H, hF, fun F1 x F2 h1 h2 h3 => ?_⟩
  have hd : Chunked (x :: F2) (H.drop F1.length) := by
    have := List.forall₂_drop F1.length hF
    rw [h1, List.drop_left' rfl] at this
    exact this
  have hlen := hd.length_eq
  cases hH : H.drop F1.length with
  | nil => rw [hH] at hlen; simp at hlen
  | cons z H2 =>
    rw [hH] at hd
    rcases hd with _ | ⟨hxz, -⟩
    obtain ⟨h4, h5⟩ := hk (H.drop F1.length) (List.drop_suffix _ _) (by rw [← hlen]; simpa using h2) h3 z
      (by rw [hH]; exact List.mem_cons_self)
    refine ⟨by rw [hxz.1]; exact h4, fun y hy => ?_⟩
    have := h5 y hy
    have h6 := hxz.1
    have h7 := hxz.2
    omega

example : ∀ op ∈ demoRun, op.avail := by
  intro op h
  simp only [demoRun, List.mem_cons, List.not_mem_nil, or_false] at h
  rcases h with rfl | rfl | rfl | rfl | rfl | rfl | rfl | rfl | rfl | rfl | rfl | rfl <;>
    first | trivial | exact Or.inr (by simp)

/-- The quarantine never holds as many blocks as its limit; a limit of one means no quarantine. -/
theorem C21_limit_one (hc : CfgOk c) (hs : Start c base commit) (hg : GoodRun c (c.init base commit brk) [] ops)
    (he : exec c (c.init base commit brk) [] ops = some (s, L, F)) (hav : ∀ op ∈ ops, op.avail)
    (h1 : c.delayFrees ≤ 1) : s.delay = [] := by
  obtain ⟨H, -, -, -, h⟩ := C21_delay_partial hc hs hg he hav
  rcases h with h | h
  · exact h
  · obtain ⟨Q, h2, h3, -⟩ := C21_fifo hc hs hg he
    have : Q.length = 0 := by omega
    rw [h2, List.length_eq_zero_iff.1 this]; rfl

/-! ## C22 -/

/-- `free` accepts exactly the blocks of the application; anything else is reported and changes
nothing; an accepted block, and only that block, is not in use afterwards. -/
theorem C22_free_partial (hc : CfgOk c) (hs : Start c base commit) (hg : GoodRun c (c.init base commit brk) [] ops)
    (he : exec c (c.init base commit brk) [] ops = some (s, L, F)) (os : Os) (p : Nat) :
    ∃ s' ok, free c os s p = some (s', ok) ∧ (ok = true ↔ ∃ q, (p, q) ∈ L) ∧ (ok = false → s' = s) ∧
      ∀ x, isLive c s' x = true ↔ isLive c s x = true ∧ x ≠ p := by
  obtain ⟨Q, H, i, -⟩ := run_inv hc hs hg he
  obtain ⟨s', Q', e, i', -, h1, -⟩ := free_inv hc i os p
  refine ⟨s', owns L p, e, owns_iff, fun h => (h1 h).1, fun x => ?_⟩
  rw [i'.isLive hc, i.isLive hc, owns_iff, owns_iff]
  unfold drop
  constructor
  · rintro ⟨q, hq⟩
    obtain ⟨h2, h3⟩ := List.mem_filter.1 hq
    exact ⟨⟨q, h2⟩, by simpa using h3⟩
  · rintro ⟨⟨q, hq⟩, h3⟩
    exact ⟨q, List.mem_filter.2 ⟨hq, by simpa using h3⟩⟩

/-- `realloc` of anything but a block of the application is reported and changes nothing. -/
theorem C22_realloc_partial (hc : CfgOk c) (hs : Start c base commit)
    (hg : GoodRun c (c.init base commit brk) [] ops)
    (he : exec c (c.init base commit brk) [] ops = some (s, L, F)) (os : Os) {p size : Nat} (f : RFlags)
    (hp : p ≠ 0) (hno : ∀ q, (p, q) ∉ L) : realloc c os s p size f = some (s, 0, false) := by
  obtain ⟨Q, H, i, -⟩ := run_inv hc hs hg he
  have ho : owns L p = false := by
    rw [Bool.eq_false_iff]
    intro h
    obtain ⟨q, hq⟩ := owns_iff.1 h
    exact hno q hq
  unfold realloc
  rw [if_neg hp]
  split
  · obtain ⟨s', Q', e, -, -, h1, -⟩ := free_inv hc i os p
    rw [e, ho, (h1 ho).1]
  · rw [i.isLive hc, ho]; rfl

/-- The check is a heuristic: an application that writes the bytes of a header into its own block
can free an interior address, which the property forbids. -/
theorem C22_forged : ∃ s L F, exec demo (demo.init 65536 69632 true) [] [.alloc { } 200 0 false] = some (s, L, F) ∧
    L = [(65904, 200)] ∧ ∃ s', free demo { } (s.put (65904 + 96) { size := 16 }) (65904 + 96) = some (s', true) := by
  have h : ((exec demo (demo.init 65536 69632 true) [] [.alloc { } 200 0 false]).map fun x =>
      (x.2.1, ((free demo { } (x.1.put (65904 + 96) { size := 16 }) (65904 + 96)).map Prod.snd))) =
      some ([(65904, 200)], some true) := by decide +kernel
  cases he : exec demo (demo.init 65536 69632 true) [] [.alloc { } 200 0 false] with
  | none => rw [he] at h; cases h
  | some x =>
    obtain ⟨s, L, F⟩ := x
    rw [he] at h
    simp only [Option.map_some, Option.some.injEq, Prod.mk.injEq] at h
    refine ⟨s, L, F, rfl, h.1, ?_⟩
    cases hf : free demo { } (s.put (65904 + 96) { size := 16 }) (65904 + 96) with
    | none => rw [hf] at h; simp at h
    | some y =>
      obtain ⟨s', ok⟩ := y
      rw [hf] at h
      simp only [Option.map_some, Option.some.injEq] at h
      exact ⟨s', by rw [h.2]⟩

/-! ## C23 -/

/-- For every block in use, the size query returns the size asked for, and the chunk is at least as
large. -/
theorem C23_size_partial (hc : CfgOk c) (hs : Start c base commit) (hg : GoodRun c (c.init base commit brk) [] ops)
    (he : exec c (c.init base commit brk) [] ops = some (s, L, F)) {p q : Nat} (h : (p, q) ∈ L) :
    sizeOf? c s p = some q ∧ ∃ x, s.hdr p = some x ∧ q ≤ x.size := by
  obtain ⟨Q, H, i, -⟩ := run_inv hc hs hg he
  have hl := i.isLive hc p
  rw [owns_iff.2 ⟨q, h⟩] at hl
  obtain ⟨R, G, hp, hcalm, hL, rfl⟩ := i
  unfold sizeOf?
  rw [if_pos hl]
  rcases List.mem_append.1 (hL.mem_iff.1 h) with h1 | h1
  · obtain ⟨-, x, h2, -, h3, -, h4, -⟩ := hp.hdr_live hc h1
    exact ⟨by rw [h2, ← h3]; rfl, x, h2, h4⟩
  · obtain ⟨m, hm, he⟩ := List.mem_map.1 h1
    cases he
    obtain ⟨-, x, h2, -, h3, -, h4⟩ := hp.hdr_map hm
    exact ⟨by rw [h2, ← h3]; rfl, x, h2, by rw [← h3]; unfold Hdr.req; omega⟩

/-- The size query on anything else finds nothing. -/
theorem C23_size_none (hc : CfgOk c) (hs : Start c base commit) (hg : GoodRun c (c.init base commit brk) [] ops)
    (he : exec c (c.init base commit brk) [] ops = some (s, L, F)) {p : Nat} (h : ∀ q, (p, q) ∉ L) :
    sizeOf? c s p = none := by
  obtain ⟨Q, H, i, -⟩ := run_inv hc hs hg he
  unfold sizeOf?
  rw [if_neg]
  rw [i.isLive hc, owns_iff]
  rintro ⟨q, hq⟩
  exact h q hq

/-- A request of 4 GB or more fails, whatever the state. -/
theorem C23_too_large (c : Cfg) (os : Os) (s : St) {req : Nat} (align : Nat) (zero : Bool) (h : 2 ^ 32 ≤ req) :
    alloc c os s req align zero = some (s, 0) := by
  unfold alloc
  rw [if_pos (Or.inl h)]

/-- The bound on request sizes is needed: just below 4 GB a 64-bit request gets a 16-byte chunk. -/
theorem C23_wraps : ((alloc demo { } (demo.init 65536 69632 true) 0xFFFFFFF5 0 false).map fun x =>
    (x.2, (x.1.hdr x.2).map Hdr.size)) = some (65904, some 16) := by decide +kernel

/-- An aligned request may be rounded to fewer bytes than asked for. -/
theorem C23_memalign_wraps : alignedSize demo 0x80000000 0x80000000 = 96 := by decide +kernel

/-- The check for `calloc` is exact on 32-bit. -/
theorem C23_calloc32 (hx : c.x64 = false) (m n : Nat) : mulOverflows c m n = true ↔ 2 ^ 32 ≤ m * n := by
  unfold mulOverflows
  rw [hx]
  simp only [Bool.false_eq_true, if_false, decide_eq_true_eq]
  omega

/-- On 64-bit the check never rejects a product that fits. -/
theorem C23_calloc64_sound (hx : c.x64 = true) {m n : Nat} (hm : m < 2 ^ 64) (hn : n < 2 ^ 64)
    (h : mulOverflows c m n = true) : 2 ^ 64 ≤ m * n := by
  unfold mulOverflows at h
  rw [hx] at h
  simp only [if_true, Bool.or_eq_true, Bool.and_eq_true, decide_eq_true_eq] at h
  have em := Nat.div_add_mod m (2 ^ 32)
  have en := Nat.div_add_mod n (2 ^ 32)
  have lm : m / 2 ^ 32 < 2 ^ 32 := by omega
  have ln : n / 2 ^ 32 < 2 ^ 32 := by omega
  have l0 : m % 2 ^ 32 < 2 ^ 32 := Nat.mod_lt _ (by omega)
  have k0 : n % 2 ^ 32 < 2 ^ 32 := Nat.mod_lt _ (by omega)
  rw [Nat.mod_eq_of_lt lm, Nat.mod_eq_of_lt ln] at h
  generalize m / 2 ^ 32 = m1 at *
  generalize n / 2 ^ 32 = n1 at *
  generalize m % 2 ^ 32 = m0 at *
  generalize n % 2 ^ 32 = n0 at *
  subst em en
  have hprod : (2 ^ 32 * m1 + m0) * (2 ^ 32 * n1 + n0) =
      2 ^ 64 * (m1 * n1) + 2 ^ 32 * (m1 * n0 + m0 * n1) + m0 * n0 := by ring
  rw [hprod]
  have hm0 : m0 * n0 ≤ (2 ^ 32 - 1) * (2 ^ 32 - 1) := Nat.mul_le_mul (by omega) (by omega)
  by_cases hb : 0 < m1 ∧ 0 < n1
  · have : 1 ≤ m1 * n1 := Nat.mul_pos hb.1 hb.2
    omega
  · have h1 : m1 * n0 + m0 * n1 ≤ (2 ^ 32 - 1) * (2 ^ 32 - 1) := by
      by_cases h0 : m1 = 0
      · subst h0
        have : m0 * n1 ≤ (2 ^ 32 - 1) * (2 ^ 32 - 1) := Nat.mul_le_mul (by omega) (by omega)
        omega
      · have h0' : n1 = 0 := by omega
        subst h0'
        have : m1 * n0 ≤ (2 ^ 32 - 1) * (2 ^ 32 - 1) := Nat.mul_le_mul (by omega) (by omega)
        omega
    rw [Nat.mod_eq_of_lt (show m1 * n0 + m0 * n1 < 2 ^ 64 by omega)] at h
    rcases h with (h | h) | h
    · exact absurd h hb
    · omega
    · by_cases h2 : m1 * n0 + m0 * n1 ≤ 2 ^ 32 - 1
      · rw [Nat.mod_eq_of_lt (by omega)] at h
        omega
      · omega

/-- On 64-bit a product is rejected exactly if it does not fit even without the product of the two
low halves. -/
theorem C23_calloc64_exact (hx : c.x64 = true) {m n : Nat} (hm : m < 2 ^ 64) (hn : n < 2 ^ 64) :
    mulOverflows c m n = true ↔ 2 ^ 64 + m % 2 ^ 32 * (n % 2 ^ 32) ≤ m * n := by
  unfold mulOverflows
  rw [hx]
  simp only [if_true, Bool.or_eq_true, Bool.and_eq_true, decide_eq_true_eq]
  have em := Nat.div_add_mod m (2 ^ 32)
  have en := Nat.div_add_mod n (2 ^ 32)
  have lm : m / 2 ^ 32 < 2 ^ 32 := by omega
  have ln : n / 2 ^ 32 < 2 ^ 32 := by omega
  have l0 : m % 2 ^ 32 < 2 ^ 32 := Nat.mod_lt _ (by omega)
  have k0 : n % 2 ^ 32 < 2 ^ 32 := Nat.mod_lt _ (by omega)
  rw [Nat.mod_eq_of_lt lm, Nat.mod_eq_of_lt ln]
  generalize m / 2 ^ 32 = m1 at *
  generalize n / 2 ^ 32 = n1 at *
  generalize m % 2 ^ 32 = m0 at *
  generalize n % 2 ^ 32 = n0 at *
  have e : m * n = 2 ^ 64 * (m1 * n1) + 2 ^ 32 * (m1 * n0 + m0 * n1) + m0 * n0 := by
    rw [← em, ← en]; ring
  rw [e]
  have q1 : m1 * n0 ≤ (2 ^ 32 - 1) * (2 ^ 32 - 1) := Nat.mul_le_mul (by omega) (by omega)
  have q2 : m0 * n1 ≤ (2 ^ 32 - 1) * (2 ^ 32 - 1) := Nat.mul_le_mul (by omega) (by omega)
  have q3 : m0 * n0 ≤ (2 ^ 32 - 1) * (2 ^ 32 - 1) := Nat.mul_le_mul (by omega) (by omega)
  rcases Nat.eq_zero_or_pos m1 with h1 | h1
  · rw [h1] at q1 ⊢
    rw [Nat.zero_mul, Nat.zero_mul]
    generalize m0 * n1 = u at *
    generalize m0 * n0 = v at *
    rw [Nat.mod_eq_of_lt (by omega : 0 + u < 2 ^ 64)]
    omega
  rcases Nat.eq_zero_or_pos n1 with h2 | h2
  · rw [h2] at q2 ⊢
    rw [Nat.mul_zero, Nat.mul_zero]
    generalize m1 * n0 = u at *
    generalize m0 * n0 = v at *
    rw [Nat.mod_eq_of_lt (by omega : u + 0 < 2 ^ 64)]
    omega
  have h3 : 1 ≤ m1 * n1 := Nat.mul_pos h1 h2
  constructor
  · intro _
    generalize m1 * n1 = w at *
    generalize m1 * n0 + m0 * n1 = u at *
    omega
  · intro _
    exact .inl (.inl ⟨h1, h2⟩)

/-- But it accepts products that do not fit: the middle term is compared without its factor 2^32.
Then `calloc` returns a block of 64 KB for an array of more than 16 exabytes. -/
theorem C23_calloc64_misses : (calloc demo { arena := some 0x20000000 } (demo.init 65536 69632 true)
    (2 ^ 32 + 65536) (2 ^ 32 - 65535)).map (fun x => (x.2, sizeOf? demo x.1 x.2)) =
      some (0x20000000 + 176, some 65536) ∧ 2 ^ 64 ≤ (2 ^ 32 + 65536) * (2 ^ 32 - 65535) := by decide +kernel

/-- `calloc` of a product that fits hands out a zeroed block of that size. -/
theorem C23_calloc_partial (hc : CfgOk c) (hs : Start c base commit) (hg : GoodRun c (c.init base commit brk) [] ops)
    (he : exec c (c.init base commit brk) [] ops = some (s, L, F)) {os : Os} {n size : Nat}
    (hn : n < (if c.x64 then 2 ^ 64 else 2 ^ 32)) (hsz : size < (if c.x64 then 2 ^ 64 else 2 ^ 32))
    (hfit : n * size < if c.x64 then 2 ^ 64 else 2 ^ 32)
    (hgood : Good c s L (.alloc os (n * size) 0 true)) :
    ∃ s' r, calloc c os s n size = some (s', r) ∧ (r ≠ 0 → sizeOf? c s' r = some (n * size) ∧
      ∀ i, i < n * size → s'.mem (r + i) = 0) := by
  have hno : mulOverflows c n size = false := by
    rw [Bool.eq_false_iff]
    intro h
    cases hx : c.x64 with
    | true =>
      rw [hx, if_pos rfl] at hn hsz hfit
      have := C23_calloc64_sound hx hn hsz h
      omega
    | false =>
      rw [hx, if_neg (by simp)] at hfit
      have := (C23_calloc32 hx n size).1 h
      omega
  have hmod : (if c.x64 = true then n * size % 2 ^ 64 else n * size % 2 ^ 32) = n * size := by
    cases hx : c.x64 with
    | true =>
      rw [hx, if_pos rfl] at hfit
      rw [if_pos rfl, Nat.mod_eq_of_lt hfit]
    | false =>
      rw [hx, if_neg (by simp)] at hfit
      rw [if_neg (by simp), Nat.mod_eq_of_lt hfit]
  obtain ⟨Q, H, i, -⟩ := run_inv hc hs hg he
  obtain ⟨s', r, Q', e, i', -, -, hz, -⟩ := alloc_inv hc i true hgood.1 hgood.2
  refine ⟨s', r, ?_, fun hr => ⟨?_, hz rfl hr⟩⟩
  · unfold calloc
    rw [hno, hmod, e]; rfl
  · rw [if_neg hr] at i'
    have hl := i'.isLive hc r
    rw [owns_iff.2 ⟨_, List.mem_cons_self⟩] at hl
    obtain ⟨R, G, hp, hcalm, hL, rfl⟩ := i'
    unfold sizeOf?
    rw [if_pos hl]
    rcases List.mem_append.1 (hL.mem_iff.1 List.mem_cons_self) with h1 | h1
    · obtain ⟨-, x, h2, -, h3, -, h4, -⟩ := hp.hdr_live hc h1
      rw [h2, ← h3]; rfl
    · obtain ⟨m, hm, he⟩ := List.mem_map.1 h1
      obtain ⟨-, x, h2, -, h3, -, h4⟩ := hp.hdr_map hm
      obtain ⟨e1, e2⟩ := Prod.mk.inj he
      rw [← e1, h2, ← e2, ← h3]; rfl

/-! ## C24 -/

/-- A free chunk is on the list of the largest class that does not exceed its size. -/
theorem C24_class (hc : CfgOk c) (hs : Start c base commit) (hg : GoodRun c (c.init base commit brk) [] ops)
    (he : exec c (c.init base commit brk) [] ops = some (s, L, F)) {b p : Nat} (hb : p ∈ s.free b) :
    ∃ h, s.hdr p = some h ∧ h.freed = true ∧ h.delay = false ∧ b < c.sizes.length ∧
      c.sizes.getD b 0 ≤ h.size ∧ ∀ j, b < j → j < c.sizes.length → h.size < c.sizes.getD j 0 := by
  obtain ⟨Q, H, ⟨R, G, hp, hcalm, hL, rfl⟩, -⟩ := run_inv hc hs hg he
  obtain ⟨G1, a, l, k, r, G2, rfl, rfl, hk, rfl⟩ := hp.free_split hb
  obtain ⟨h, ha⟩ := hp.at
  refine ⟨h, ha.hdr, ?_, ?_, bucketIndex_lt c _, ?_, ?_⟩
  · rw [ha.ok.freed, hk]; rfl
  · rw [ha.ok.delay, hk]; rfl
  · rw [ha.ok.size]; exact bucketIndex_le c ha.min
  · intro j h1 h2
    rw [ha.ok.size]
    exact bucketIndex_max c h2 h1

/-- The free chunks are on exactly one list, once. -/
theorem C24_once (hc : CfgOk c) (hs : Start c base commit) (hg : GoodRun c (c.init base commit brk) [] ops)
    (he : exec c (c.init base commit brk) [] ops = some (s, L, F)) :
    (∀ b, (s.free b).Nodup) ∧ ∀ b b' p, p ∈ s.free b → p ∈ s.free b' → b = b' := by
  obtain ⟨Q, H, ⟨R, G, hp, hcalm, hL, rfl⟩, -⟩ := run_inv hc hs hg he
  have hap := hp.chunks_apart
  refine ⟨fun b => ?_, fun b b' p h1 h2 => ?_⟩
  · rw [(hp.free b).nodup_iff]
    unfold fr
    refine List.Pairwise.map _ (fun a b h => h) ((hap.filter _).imp ?_)
    intro x y h e
    have := inter_pos c
    simp only [Apart] at h
    omega
  · obtain ⟨G1, a, l, k, r, G2, rfl, rfl, hk, rfl⟩ := hp.free_split h1
    obtain ⟨h, ha⟩ := hp.at
    obtain ⟨x, h3, -, -, -⟩ := C24_class hc hs hg he h1
    have hsame : ∀ k' ∈ chunks (G1 ++ (a, l ++ k :: r) :: G2), k'.p = k.p → k' = k := by
      intro k' hk' hpp
      have hk0 : k ∈ chunks (G1 ++ (a, l ++ k :: r) :: G2) := by simp [chunks]
      by_contra hne
      refine hne (pairwise_inj (f := Ck.p) (hap.imp ?_) hk' hk0 hpp)
      intro x y h e
      have := inter_pos c
      simp only [Apart] at h
      omega
    rw [(hp.free b').mem_iff] at h2
    obtain ⟨k', hk', hpp⟩ := List.mem_map.1 h2
    obtain ⟨h5, h6⟩ := List.mem_filter.1 hk'
    rw [hsame k' h5 hpp] at h6
    simp only [decide_eq_true_eq] at h6
    exact h6.2

/-- If a free chunk is in a class guaranteed to fit, or in the last class and large enough, one is
chosen. -/
theorem pick_some {hdr : Hdr} {size b p : Nat} (hb : b < c.numLists) (hp : p ∈ s.free b)
    (hh : s.hdr p = some hdr) (hcl : c.sizes.getD b 0 ≤ hdr.size)
    (h : size ≤ c.sizes.getD b 0 ∨ (b = c.numLists - 1 ∧ size ≤ hdr.size)) :
    pick c s size ≠ none := by
  have h7 := numLists_gt c
  obtain ⟨f1, f2, f3, f4⟩ := firstBucket_spec c.sizes size (c.numLists - 1) 0
  obtain ⟨n1, n2, n3, n4⟩ := nonEmptyBucket_spec s.free
    (c.numLists - 1 - firstBucket c.sizes size (c.numLists - 1) 0)
    (firstBucket c.sizes size (c.numLists - 1) 0)
  unfold pick
  simp only
  generalize firstBucket c.sizes size (c.numLists - 1) 0 = b0 at *
  generalize nonEmptyBucket s.free (c.numLists - 1 - b0) b0 = b1 at *
  have hb0 : b0 ≤ b := by
    rcases h with h | h
    · by_contra hlt
      have := f4 b (by omega) (by omega)
      omega
    · omega
  have hb1 : b1 ≤ b := by
    by_contra hlt
    have := n4 b hb0 (by omega)
    rw [this] at hp
    cases hp
  by_cases hl : b1 = c.numLists - 1
  · rw [if_pos hl]
    have hbl : b = c.numLists - 1 := by omega
    intro hn
    have h1 := List.find?_eq_none.1 hn p (by rw [hl, ← hbl]; exact hp)
    rw [hh] at h1
    have : size ≤ hdr.size := by omega
    simp [this] at h1
  · rw [if_neg hl]
    have := n3 (by omega)
    intro hn
    rw [List.head?_eq_none_iff] at hn
    exact this hn

/-- A request that is not large is served from the free lists whenever a free chunk is in a class
guaranteed to fit, or in the last class and large enough.  The result is such a chunk, and the system
is not asked for memory (`os` is arbitrary). -/
theorem C24_served (hc : CfgOk c) (hs : Start c base commit) (hg : GoodRun c (c.init base commit brk) [] ops)
    (he : exec c (c.init base commit brk) [] ops = some (s, L, F)) (os : Os) {req : Nat} (zero : Bool)
    (hreq : max c.A (alignUp req c.A) + c.hs < minMmap) {b p : Nat} {h : Hdr} (hb : p ∈ s.free b)
    (hh : s.hdr p = some h)
    (hfit : max c.A (alignUp req c.A) ≤ c.sizes.getD b 0 ∨
      (b + 1 = c.sizes.length ∧ max c.A (alignUp req c.A) ≤ h.size)) :
    ∃ s' r b' x, alloc c os s req 0 zero = some (s', r) ∧ r ≠ 0 ∧ r ∈ s.free b' ∧ s.hdr r = some x ∧
      req ≤ x.size := by
  obtain ⟨h', e1, -, -, hbl, hcl, -⟩ := C24_class hc hs hg he hb
  rw [hh] at e1
  cases e1
  obtain ⟨Q, H, ⟨R, G, hp, hcalm, hL, rfl⟩, -⟩ := run_inv hc hs hg he
  have hmin : minMmap < 2 ^ 31 := by decide
  have hle := le_alignUp req (A_pos c)
  have hA16 := A_le c
  have hpos := A_pos c
  have hI : c.inter + c.A + c.A < 2 ^ 31 := by
    have := hc.mainFits
    have : page < 2 ^ 20 := by decide
    omega
  have hsz : alignedSize c req c.A = max c.A (alignUp req c.A) := by
    rw [alignedSize_eq (by omega), if_neg (by omega)]
  have h1 : ¬ (req ≥ 2 ^ 32 ∨ (c.x64 = false ∧ alignUp req page ≥ 2 ^ 32)) := by
    have := alignUp_lt req (show 0 < page by decide)
    have : page < 2 ^ 20 := by decide
    omega
  have hpk := pick_some hbl hb hh hcl (size := max c.A (alignUp req c.A)) (by
    have : c.sizes.length = c.numLists := rfl
    omega)
  have hd : c.A ∣ max c.A (alignUp req c.A) := by
    rcases Nat.le_total c.A (alignUp req c.A) with h3 | h3
    · rw [Nat.max_eq_right h3]; exact alignUp_dvd _
    · rw [Nat.max_eq_left h3]
  rcases findFree_spec hc hp hcalm (Nat.le_max_left _ _) hd os with ⟨-, e⟩ | ⟨s1, G1, a, l, k, r, G2, e, hpick, g, -⟩
  · exact absurd e hpk
  · obtain ⟨y, ha⟩ := g.pre.at
    have hkp : k.p % c.A = 0 := Nat.mod_eq_zero_of_dvd
      (((g.pre.rep (a, l ++ k :: r) (by simp)).align hc g.pre.geo_at.start).2 k (by simp))
    have hk0 : k.p ≠ 0 := by
      have := ha.base
      have := ha.lo
      have := inter_pos c
      omega
    obtain ⟨G1', a', l', k', r', G2', hG, hk1, hk2, hk3, hk4⟩ := pick_spec hp hpick
    refine ⟨if zero then (s1.put k.p { y with reqDiff := u32 (y.size + 2 ^ 32 - req) }).zero k.p req
      else s1.put k.p { y with reqDiff := u32 (y.size + 2 ^ 32 - req) }, k.p, pickBucket c s (max c.A (alignUp req c.A)),
      ?_⟩
    have hfin : finish c os 0 s1 k.p req c.A =
        some (s1.put k.p { y with reqDiff := u32 (y.size + 2 ^ 32 - req) }, k.p) := by
      unfold finish
      rw [ha.hdr]
      simp only []
      rw [if_pos hkp]
    subst hG
    obtain ⟨x, hx⟩ := hp.at
    refine ⟨x, ?_, hk0, ?_, ?_, ?_⟩
    · unfold alloc
      rw [if_neg h1, if_neg (by simp)]
      simp only [if_pos hpos]
      rw [hsz]
      have hu : u32 (max c.A (alignUp req c.A) + c.hs) = max c.A (alignUp req c.A) + c.hs := by
        unfold u32; rw [Nat.mod_eq_of_lt (by omega)]
      rw [hu, if_neg (by omega), e]
      simp only [hfin]
    · have := hp.free_mem (G1 := G1') (a := a') (l := l') (k := k') (r := r') (G2 := G2') hk2
      rw [hk1, hk3] at this
      exact this
    · rw [← hk1]; exact hx.hdr
    · rw [hx.ok.size]; omega

/-- Both kinds of free chunk in the demonstration: after the run, a request of 32 bytes is served by
the freed block of 112 bytes. -/
example : ((exec demo (demo.init 65536 69632 true) [] demoRun).map fun x =>
    ((alloc demo { } x.1 32 0 false).map Prod.snd, (List.range 17).filter (fun b => x.1.free b ≠ []))) =
      some (some 65904, [5]) := by decide +kernel

/-! ## C25 -/

/-- A successful `realloc` returns a block with the same leading bytes; the part it grew by is zero if
asked for; all other memory is untouched; if it fails, nothing is lost. -/
theorem C25_contents_partial (hc : CfgOk c) (hs : Start c base commit)
    (hg : GoodRun c (c.init base commit brk) [] ops)
    (he : exec c (c.init base commit brk) [] ops = some (s, L, F)) {os : Os} {p q size : Nat} {f : RFlags}
    (hpq : (p, q) ∈ L) (hne : size = 0 → f.allowEmpty = true)
    (hgood : Good c s L (.realloc os p size f)) :
    ∃ s' r, realloc c os s p size f = some (s', r, true) ∧
      (r = 0 → s'.mem = s.mem ∧ sizeOf? c s' p = some q) ∧
      (r ≠ 0 → sizeOf? c s' r = some size ∧ (r ≠ p → isLive c s' p = false) ∧
        (∀ i, i < min size q → s'.mem (r + i) = s.mem (p + i)) ∧
        (f.zero = true → ∀ i, q ≤ i → i < size → s'.mem (r + i) = 0)) ∧
      (∀ a, (r = 0 ∨ a < r ∨ r + size ≤ a) → s'.mem a = s.mem a) ∧
      ∀ x y, x ≠ p → (sizeOf? c s x = some y → sizeOf? c s' x = some y ∧ ∀ i, i < y → s'.mem (x + i) = s.mem (x + i)) := by
  obtain ⟨Q, H, i, -⟩ := run_inv hc hs hg he
  obtain ⟨s', r, Q', e, i', -, m⟩ := step_inv hc i hgood
  have hp0 : p ≠ 0 := by
    have := i.pos hc hpq
    simp only at this
    omega
  have ho : owns L p = true := owns_iff.2 ⟨q, hpq⟩
  have hva : validArg L (.realloc os p size f) = true := by simp [validArg, ho]
  rw [hva] at e
  have hsz : ¬ (size = 0 ∧ f.allowEmpty = false) := by
    rintro ⟨h1, h2⟩
    rw [hne h1] at h2
    cases h2
  have huniq : ∀ q', (p, q') ∈ L → q' = q := by
    intro q' hq'
    have h1 := i.filter hpq
    have h2 := i.filter hq'
    rw [h1] at h2
    simpa using h2.symm
  obtain ⟨m1, m2, m3⟩ := m
  have hled : ledger L (.realloc os p size f) r = if r = 0 then L else (r, size) :: drop L p := by
    simp only [ledger]
    rw [if_neg hp0, if_neg hsz]
  rw [hled] at i'
  have hsize : ∀ {s : St} {L Q : List (Nat × Nat)}, Inv c s L Q → ∀ {x y}, (x, y) ∈ L → sizeOf? c s x = some y := by
    intro s L Q i x y h
    have hl := i.isLive hc x
    rw [owns_iff.2 ⟨y, h⟩] at hl
    obtain ⟨R, G, hp, hcalm, hL, rfl⟩ := i
    unfold sizeOf?
    rw [if_pos hl]
    rcases List.mem_append.1 (hL.mem_iff.1 h) with h1 | h1
    · obtain ⟨-, x, h2, -, h3, -, h4, -⟩ := hp.hdr_live hc h1
      rw [h2, ← h3]; rfl
    · obtain ⟨m, hm, he⟩ := List.mem_map.1 h1
      cases he
      obtain ⟨-, x, h2, -, h3, -, h4⟩ := hp.hdr_map hm
      rw [h2, ← h3]; rfl
  refine ⟨s', r, e, ?_, ?_, ?_, ?_⟩
  · rintro rfl
    refine ⟨funext fun a => m3 a (Or.inl rfl), ?_⟩
    rw [if_pos rfl] at i'
    exact hsize i' hpq
  · intro hr
    rw [if_neg hr] at i'
    refine ⟨hsize i' List.mem_cons_self, fun hne => ?_, fun j hj => ?_, fun hz j h1 h2 => ?_⟩
    · rw [i'.isLive hc, Bool.eq_false_iff]
      intro h
      obtain ⟨q', hq'⟩ := owns_iff.1 h
      rcases List.mem_cons.1 hq' with h1 | h1
      · exact hne (Prod.mk.inj h1).1.symm
      · have := (List.mem_filter.1 h1).2
        simp at this
    · exact m1 q hpq hne hr j (by omega) (by omega)
    · exact m2 hz hr j h2 fun q' hq' => by rw [huniq q' hq']; exact h1
  · intro a ha
    exact m3 a (by omega)
  · intro x y hxp hx
    have hxL : (x, y) ∈ L := by
      have hl : isLive c s x = true := by
        cases hh : isLive c s x with
        | true => rfl
        | false => unfold sizeOf? at hx; rw [hh] at hx; simp at hx
      rw [i.isLive hc] at hl
      obtain ⟨y', hy'⟩ := owns_iff.1 hl
      rw [hsize i hy'] at hx
      cases hx
      exact hy'
    by_cases hr : r = 0
    · rw [if_pos hr] at i'
      exact ⟨hsize i' hxL, fun j _ => m3 _ (Or.inl hr)⟩
    · rw [if_neg hr] at i'
      have hxd : (x, y) ∈ drop L p := List.mem_filter.2 ⟨hxL, by simpa using hxp⟩
      refine ⟨hsize i' (List.mem_cons_of_mem _ hxd), fun j hj => m3 _ (Or.inr ?_)⟩
      have := (List.pairwise_cons.1 i'.apart).1 _ hxd
      simp only [Apart] at this
      omega

/-! ## C26 -/

/-- Iterating the heap reports every block of the application exactly once, with its size, in the
order of addresses, and nothing else. -/
theorem C26_iterate (hc : CfgOk c) (hs : Start c base commit) (hg : GoodRun c (c.init base commit brk) [] ops)
    (he : exec c (c.init base commit brk) [] ops = some (s, L, F)) :
    ∃ l, iterateAll c s = some l ∧ l.Perm L ∧ l.Pairwise fun x y => x.1 < y.1 := by
  obtain ⟨Q, H, ⟨R, G, hp, hcalm, hL, rfl⟩, -⟩ := run_inv hc hs hg he
  obtain ⟨l, e, h1, h2⟩ := iterateAll_spec hp hcalm
  exact ⟨l, e, h1.trans hL.symm, h2⟩

example : (exec demo (demo.init 65536 69632 true) [] (demoRun.take 9)).map (fun x =>
    iterate demo x.1 (x.1.arenas.map Sum.inl ++ x.1.maps.map Sum.inr)) =
      some (some [(66096, 50), (66240, 10), (536871088, 4000), (536875168, 4000), (268435536, 200000)]) := by
  decide +kernel

end Verif.Al
