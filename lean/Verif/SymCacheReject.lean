import Verif.SymCacheSafe

/-!
# Files that must not be used

A cache file of another version of the format, and a file that was cut or has grown
since it was written, is never accepted by the reader.
-/

namespace Verif.SymCache

theorem skipWs_suffix {s r : Str} (h : skipWs s = .ok r) : r <:+ s := by
  induction s with
  | nil => simp [skipWs] at h
  | cons x xs ih =>
    rw [skipWs] at h
    split at h
    · exact (ih h).trans (List.suffix_cons ..)
    · cases h; exact List.suffix_refl _

theorem scanDigits_suffix {b v : Nat} {s r : Str} :
    ∀ {acc}, scanDigits b acc s = .ok (v, r) → r <:+ s := by
  induction s with
  | nil => intro acc h; simp [scanDigits] at h
  | cons x xs ih =>
    intro acc h
    rw [scanDigits] at h
    split at h
    · exact (ih h).trans (List.suffix_cons ..)
    · cases h; exact List.suffix_refl _

theorem skip0x_suffix (b : Nat) (s : Str) : skip0x b s <:+ s := by
  unfold skip0x
  split
  · split
    · exact (List.suffix_cons ..).trans (List.suffix_cons ..)
    · exact List.suffix_refl _
  · exact List.suffix_refl _

theorem scanNum_suffix {b w v : Nat} {s r : Str} (h : scanNum b w s = .ok (some (v, r))) :
    r <:+ s := by
  unfold scanNum at h
  simp only [bind, Except.bind] at h
  split at h
  · cases h
  rename_i s' hs'
  refine List.IsSuffix.trans ?_ ((skip0x_suffix b s').trans (skipWs_suffix hs'))
  split at h
  · cases h
  rename_i x xs hx
  rw [hx]
  split at h
  · cases h
  · split at h
    · cases h
    · rename_i q hq
      cases h
      exact scanDigits_suffix (v := q.1) hq

theorem strchr_mem {c : Nat} {s r : Str} (h : strchr c s = .ok (some r)) : c ∈ s := by
  induction s with
  | nil => simp [strchr] at h
  | cons x xs ih =>
    rw [strchr] at h
    split at h
    · rename_i hx; subst hx; exact List.mem_cons_self ..
    · split at h
      · cases h
      · exact List.mem_cons_of_mem _ (ih h)

theorem bind_ok {α β : Type} {x : Except Stop α} {f : α → Except Stop β} {b : β} :
    (x >>= f) = .ok b ↔ ∃ a, x = .ok a ∧ f a = .ok b := by
  cases x with
  | error e => exact ⟨fun h => (by cases h), fun ⟨_, h, _⟩ => (by cases h)⟩
  | ok a => exact ⟨fun h => ⟨a, rfl, h⟩, fun ⟨a', h, h'⟩ => by cases h; exact h'⟩

theorem orReject_ok {α : Type} {x : Option α} {a : α} : orReject x = .ok a ↔ x = some a := by
  cases x <;> simp [orReject]

theorem orCrash_ok {α : Type} {x : Option α} {a : α} : orCrash x = .ok a ↔ x = some a := by
  cases x <;> simp [orCrash]

theorem readIdent_ok {id : Ident} {n : Nat} {line r : Str} (h : readIdent id n line = .ok r) :
    ∃ t, scanNum 10 32 line = .ok (some (n % 2 ^ 32, 44 :: t)) := by
  unfold readIdent at h
  simp only [bind_ok, orReject_ok, orCrash_ok] at h
  obtain ⟨_, ho, a, rfl, _, ho', s, rfl, _, -, _, -, _, -, _, -, _, -, _, -, _, -, _, -, _, -, _,
    -, _, -, _, -, _, -, h⟩ := h
  split at h
  · cases h
  split at h
  · cases h
  rename_i ha
  obtain ⟨a1, a2⟩ := a
  replace ha : a1 = n % 2 ^ 32 := Classical.not_not.1 ha
  subst ha
  cases a2 with
  | nil => simp [scanLit] at ho'
  | cons x t =>
    refine ⟨t, ?_⟩
    by_cases hx : x = 44
    · rw [ho, hx]
    · simp [scanLit, hx] at ho'

/-- What the first two lines of an accepted file say. -/
theorem readFile_ok {id : Ident} {hasSyms : Bool} {g : Str} {r : Table × Bool}
    (h : readFile id hasSyms (some g) = .ok r) :
    (∃ t, scanNum 10 32 ((g ++ List.replicate (padding g.length) 0).drop (header.length + 1)) =
      .ok (some (version, t))) ∧
    ∃ L t, strchr 10 (g ++ List.replicate (padding g.length) 0) = .ok (some L) ∧
      scanNum 10 32 L.tail = .ok (some (g.length % 2 ^ 32, 44 :: t)) := by
  unfold readFile at h
  dsimp only at h
  split at h
  · cases h
  split at h
  · cases h
  simp only [bind_ok, orReject_ok] at h
  obtain ⟨_, ho, v, rfl, h⟩ := h
  split at h
  · cases h
  rename_i hv
  simp only [bind_ok, orCrash_ok] at h
  obtain ⟨_, hL, L, rfl, s, hs, -⟩ := h
  obtain ⟨t, ht⟩ := readIdent_ok hs
  exact ⟨⟨v.2, by rw [ho, ← Classical.not_not.1 hv]⟩, L, t, hL, ht⟩

/-- C33/C44: a file whose first line names another version of the format is rejected,
whatever follows. -/
theorem C33_version (id : Ident) (hasSyms : Bool) {v : Nat} (hv : v < 2 ^ 32) (hne : v ≠ version)
    (rest : Str) :
    readFile id hasSyms (some (header ++ 32 :: (fmt 10 v ++ 10 :: rest))) = .error .reject := by
  unfold readFile
  generalize hg : header ++ 32 :: (fmt 10 v ++ 10 :: rest) = g
  have hlen : g.length ≠ 0 := by
    rw [← hg]; simp
  dsimp only
  rw [if_neg hlen]
  generalize padding g.length = pad
  have ht : (g ++ List.replicate pad 0).take header.length = header := by
    rw [← hg, List.append_assoc]; exact List.take_left' rfl
  have hd : (g ++ List.replicate pad 0).drop (header.length + 1) =
      fmt 10 v ++ 10 :: (rest ++ List.replicate pad 0) := by
    have : g ++ List.replicate pad 0 =
        (header ++ [32]) ++ (fmt 10 v ++ 10 :: (rest ++ List.replicate pad 0)) := by
      rw [← hg]; simp
    rw [this]
    exact List.drop_left' (by simp)
  have hs := scan10 (n := v) (w := 32) hv (by omega) (c := 10) (by decide)
    (by omega) (rest ++ List.replicate pad 0) 0
  rw [List.replicate_zero, List.nil_append] at hs
  simp only [ht, ne_eq, not_true, if_false, hd, hs, bind, Except.bind, orReject]
  rw [if_pos hne]

/-- C33/C44: a file that was cut or has grown since it was written is never accepted
(nothing of it enters the cache), as long as the difference is no multiple of 2^32. -/
theorem C33_size {id : Ident} {debug : Bool} {es : Table}
    (hes : ∀ e ∈ es, e.1.length < bufSize) {g : Str}
    (hg : g <+: writeFile id debug es ∨ writeFile id debug es <+: g)
    (hsize : g.length % 2 ^ 32 ≠ (writeFile id debug es).length % 2 ^ 32)
    (id' : Ident) (hasSyms : Bool) (r : Table × Bool) :
    readFile id' hasSyms (some g) ≠ .ok r := by
  intro h
  obtain ⟨-, L, t, hL, hn⟩ := readFile_ok h
  have hw := writeFile_eq (id := id) (debug := debug) hes
  generalize writeFile id debug es = F at hg hsize hw
  have hZ : ∀ x ∈ List.replicate (padding g.length) 0, x = 0 :=
    fun x hx => (List.mem_replicate.1 hx).2
  generalize List.replicate (padding g.length) 0 = Z at hL hZ
  generalize hA : header ++ [32] ++ fmt 10 version = A at hw
  have hA' : ∀ x ∈ A, x ≠ 10 ∧ x ≠ 0 := by rw [← hA]; decide
  generalize hD : padTo 32 10 (fmt 10 (F.length % 2 ^ 32)) = D at hw
  have hD' : ∀ x ∈ D, x ≠ 44 := by
    intro x hx
    rw [← hD] at hx
    have := mem_padTo (b := 10) (by omega) hx
    omega
  obtain ⟨R, hR⟩ : ∃ R, restText id debug es = 44 :: R := ⟨_, rfl⟩
  rw [hR] at hw
  clear hR h
  have hkey : ∀ {T}, g = A ++ 10 :: (D ++ 44 :: T) → False := by
    intro T hT
    rw [hT, show A ++ 10 :: (D ++ 44 :: T) ++ Z = A ++ 10 :: (D ++ 44 :: (T ++ Z)) by simp,
      strchr_spec hA'] at hL
    cases hL
    rw [List.tail_cons, ← hD] at hn
    unfold padTo at hn
    rw [List.append_assoc, scan10 (Nat.mod_lt _ (by decide)) (by omega) (by decide)
      (by omega)] at hn
    simp only [Except.ok.injEq, Option.some.injEq, Prod.mk.injEq] at hn
    exact hsize hn.1.symm
  rcases hg with hg | ⟨x, hx⟩
  · -- cut
    have hF : F = (A ++ [10]) ++ (D ++ ([44] ++ R)) := by rw [hw]; simp
    obtain ⟨x, hx⟩ := hg
    rw [hF] at hx
    have hshort : ∀ B y, A = B ++ y → g = B → False := by
      intro B y hB hgB
      have h10 := strchr_mem hL
      rw [hgB, List.mem_append] at h10
      rcases h10 with h10 | h10
      · exact (hA' 10 (by rw [hB]; exact List.mem_append_left _ h10)).1 rfl
      · exact absurd (hZ 10 h10) (by decide)
    have hmid : ∀ B y, D = B ++ y → g = A ++ 10 :: B → False := by
      intro B y hB hgB
      rw [hgB, show A ++ 10 :: B ++ Z = A ++ 10 :: (B ++ Z) by simp, strchr_spec hA'] at hL
      cases hL
      have := (scanNum_suffix hn).subset (List.mem_cons_self ..)
      rw [List.tail_cons, List.mem_append] at this
      rcases this with h44 | h44
      · exact hD' 44 (by rw [hB]; exact List.mem_append_left _ h44) rfl
      · exact absurd (hZ 44 h44) (by decide)
    rcases List.append_eq_append_iff.1 hx with ⟨a, ha, -⟩ | ⟨c, hc, hc'⟩
    · rcases List.append_eq_append_iff.1 ha with ⟨b, hg', hb⟩ | ⟨b, hb, -⟩
      · cases b with
        | nil => exact hshort A [] (by simp) (by simpa using hg')
        | cons z b =>
          rw [List.cons_append, List.cons.injEq] at hb
          have hn' : b = [] := (List.append_eq_nil_iff.1 hb.2.symm).1
          exact hmid [] D rfl (by rw [hg', ← hb.1, hn'])
      · exact hshort g b hb rfl
    · rcases List.append_eq_append_iff.1 hc'.symm with ⟨b, hb, -⟩ | ⟨b, hb, hb'⟩
      · exact hmid c b hb (by rw [hc]; simp)
      · cases b with
        | nil => exact hmid c [] (by simpa using hb.symm) (by rw [hc]; simp)
        | cons z b =>
          cases hb'
          exact hkey (T := b) (by rw [hc, hb]; simp)
  · exact hkey (T := R ++ x) (by rw [← hx, hw]; simp)

/-- The file of the sample module without its last four bytes, and with two more. -/
example :
    let f := writeFile sampleId true sampleTable
    (∃ r, readFile sampleId false (some f) = .ok r) ∧
    readFile sampleId false (some (f.take (f.length - 4))) = .error .reject ∧
    readFile sampleId false (some (f ++ [97, 10])) = .error .reject := by
  refine ⟨⟨(readFile sampleId false (some (writeFile sampleId true sampleTable))).toOption.getD
    ([], false), ?_⟩, ?_, ?_⟩ <;> decide +kernel

end Verif.SymCache
